import Verif.DecodeLemmas
import Verif.Spec.Cut

/-!
# Helper lemmas: decoding messages which are cut off
-/

namespace Typical
open Spec

theorem prefix_split {p a b : Bytes} (h : p <+: a ++ b) : (p <+: a ∧ p.length < a.length) ∨ ∃ p', p = a ++ p' ∧ p' <+: b := by
  by_cases hl : p.length < a.length
  · exact .inl ⟨List.prefix_of_prefix_length_le h (List.prefix_append _ _) (by omega), hl⟩
  · have : a <+: p := List.prefix_of_prefix_length_le (List.prefix_append _ _) h (by omega)
    obtain ⟨p', rfl⟩ := this
    exact .inr ⟨p', rfl, (List.prefix_append_right_inj _).mp h⟩

/-! ### Scalars -/

theorem deserializeVarint_cut {n : Nat} (hn : n < 2 ^ 64) {p : Bytes} (h : p <+: varintBytes n) (hl : p.length < (varintBytes n).length) :
    deserializeVarint p = none := by
  obtain ⟨b, bs, h1, h2⟩ := firstByte_varintBytes hn
  cases p with
  | nil => rfl
  | cons a p =>
    rw [h1] at h
    obtain ⟨rfl, -⟩ := List.cons_prefix_cons.mp h
    have : readExact (trailingZeros a) p = none := by
      unfold readExact
      rw [if_neg]
      rw [← h2] at hl
      simp only [varintSizeFromFirstByte, List.length_cons] at hl
      omega
    rw [deserializeVarint, this]

theorem readExact_cut {p : Bytes} (h : p.length < 8) : readExact 8 p = none := if_neg (by omega)

theorem readU64Field_cut {n : Nat} (hn : n < 2 ^ 64) {p : Bytes} (h : p <+: intField n) (hl : p.length < (intField n).length) :
    readU64Field (intField n).length p = .error .eof := by
  rcases intField_cases n with ⟨h0, h1⟩ | ⟨h0, h8, h1⟩ | ⟨h8, h1⟩
  · rw [h1] at hl; simp at hl
  · unfold readU64Field
    split
    · omega
    · omega
    · rw [h1] at h hl
      rw [deserializeVarint_cut hn h hl]
  · rw [h8] at hl ⊢
    simp only [readU64Field, readExact_cut hl]

theorem readScalarField_cut (s : Scalar) (v : s.Val) {p : Bytes} (h : p <+: scalarField s v) (hl : p.length < (scalarField s v).length) :
    readScalarField s (scalarField s v).length p = .error .eof := by
  have hlt := scalarNat_lt s v
  cases s
  case f64 =>
    simp only [scalarField, if_true] at h hl ⊢
    by_cases h0 : scalarNat .f64 v = 0
    · rw [if_pos h0] at hl; simp at hl
    · rw [if_neg h0, fixed64_length] at hl
      rw [if_neg h0, fixed64_length]
      simp [readScalarField, readExact_cut hl]
  all_goals
    simp only [scalarField, reduceCtorEq, if_false] at h hl ⊢
    simp only [readScalarField, readU64Field_cut hlt h hl]
    try rfl

theorem readScalarElem_cut (s : Scalar) (v : s.Val) {p : Bytes} (h : p <+: scalarElem s v) (hl : p.length < (scalarElem s v).length) :
    readScalarElem s p = none := by
  have hlt := scalarNat_lt s v
  cases s
  case f64 =>
    simp only [scalarElem, if_true, fixed64_length] at hl
    simp only [readScalarElem, readExact_cut hl]
  all_goals
    simp only [scalarElem, reduceCtorEq, if_false] at h hl
    simp only [readScalarElem, deserializeVarint_cut hlt h hl]
    try rfl

theorem Tree.Cut.cons_scalars {f : Bool} {s : Scalar} {vs vs' : List s.Val} {p : Bytes} (v : s.Val)
    (h : Tree.Cut f (.scalars s vs) p (.scalars s vs')) :
    Tree.Cut f (.scalars s (v :: vs)) (scalarElem s v ++ p) (.scalars s (v :: vs')) := by
  generalize h1 : Tree.scalars s vs = t at h
  generalize h2 : Tree.scalars s vs' = t' at h
  cases h with
  | whole =>
    subst h1
    cases h2
    exact Tree.Cut.whole f (.scalars s (v :: vs))
  | scalars _ s' before after w q hq hl =>
    cases h1
    cases h2
    have := Tree.Cut.scalars f s (v :: vs') after w q hq hl
    rw [List.flatMap_cons, List.append_assoc] at this
    exact this
  | _ => cases h1

theorem cut_scalars (f : Bool) (s : Scalar) (vs : List s.Val) : ∀ (p : Bytes), p <+: vs.flatMap (scalarElem s) →
    ∃ vs', Tree.Cut f (.scalars s vs) p (.scalars s vs') ∧ ∀ fuel, p.length < fuel → scalarLoop (readScalarElem s) fuel p = .ok vs' := by
  induction vs with
  | nil =>
    intro p hp
    have : p = [] := by simpa using hp
    subst this
    refine ⟨[], Tree.Cut.whole f (.scalars s []), fun fuel h => ?_⟩
    cases fuel with
    | zero => omega
    | succ fuel => cases s <;> rfl
  | cons v vs ih =>
    intro p hp
    rw [List.flatMap_cons] at hp
    rcases prefix_split hp with ⟨h1, h2⟩ | ⟨p', rfl, h1⟩
    · refine ⟨[], Tree.Cut.scalars f s [] vs v p h1 h2, fun fuel h => ?_⟩
      cases fuel with
      | zero => omega
      | succ fuel => rw [scalarLoop, readScalarElem_cut s v h1 h2]
    · have := scalarElem_pos s v
      obtain ⟨vs', h3, h4⟩ := ih p' h1
      refine ⟨v :: vs', Tree.Cut.cons_scalars v h3, fun fuel h => ?_⟩
      rw [List.length_append] at h
      cases fuel with
      | zero => omega
      | succ fuel =>
        rw [scalarLoop, readScalarElem_wire]
        simp only [h4 fuel (by omega)]

/-! ### Headers -/

theorem deserializeFieldHeader_cut (i : Nat) (isInt : Bool) (w p : Bytes) (hi : i < 2 ^ 62) (hn : w.length < 2 ^ 64)
    (hint : isInt = true → w.length ≠ 0 → w.length ≠ 8 → ∃ k < 2 ^ 64, w = varintBytes k)
    (h : p <+: Spec.field i isInt w) (hl : p.length < (Spec.field i isInt w).length) :
    (deserializeFieldHeader p = none ∧ p <+: Spec.header i w.length isInt ∧
      (p.length < (Spec.header i w.length isInt).length ∨ (isInt = true ∧ w.length ≠ 0 ∧ w.length ≠ 8))) ∨
    ∃ q, p = Spec.header i w.length isInt ++ q ∧ q <+: w ∧ q.length < w.length ∧
      ((isInt = true ∧ w.length ≠ 0 ∧ w.length ≠ 8) → q ≠ []) ∧ deserializeFieldHeader p = some (i, w.length, q) := by
  have hm : sizeMode w.length isInt < 4 := by
    unfold sizeMode; split <;> (try split) <;> (try split) <;> omega
  have hlt : 4 * i + sizeMode w.length isInt < 2 ^ 64 := by omega
  rw [Spec.field, List.length_append] at hl
  rcases prefix_split h with ⟨h1, h2⟩ | ⟨q, rfl, h1⟩
  · refine .inl ⟨?_, h1, .inl h2⟩
    unfold Spec.header at h1 h2
    rcases prefix_split h1 with ⟨h3, h4⟩ | ⟨q, rfl, h3⟩
    · rw [deserializeFieldHeader, deserializeVarint_cut hlt h3 h4]
    · by_cases h3' : sizeMode w.length isInt = 3
      · rw [if_pos h3'] at h3 h2
        unfold deserializeFieldHeader
        rw [deserializeVarint_varintBytes hlt]
        simp only
        rw [tag_and i _ hi hm, tag_shift i _ hi hm, h3']
        rw [deserializeVarint_cut hn h3 (by rw [List.length_append, List.length_append] at h2; omega)]
        simp
      · rw [if_neg h3'] at h2
        simp only [List.length_append, List.length_nil] at h2
        omega
  · have hql : q.length < w.length := by rw [List.length_append] at hl; omega
    by_cases hq : q = [] ∧ isInt = true
    · obtain ⟨rfl, rfl⟩ := hq
      by_cases h8 : w.length = 8
      · right
        refine ⟨[], rfl, h1, hql, fun h => absurd h8 h.2.2, ?_⟩
        have hs : sizeMode w.length true = 1 := by simp [sizeMode, h8]
        unfold deserializeFieldHeader
        simp only [Spec.header, List.append_assoc, deserializeVarint_varintBytes hlt]
        rw [tag_and i _ hi hm, tag_shift i _ hi hm, hs]
        simp [h8]
      · left
        have h0 : w.length ≠ 0 := by simp at hql; omega
        refine ⟨?_, by simp, .inr ⟨rfl, h0, h8⟩⟩
        have hs : sizeMode w.length true = 2 := by simp [sizeMode, h0, h8]
        unfold deserializeFieldHeader
        simp only [Spec.header, List.append_assoc, deserializeVarint_varintBytes hlt]
        rw [tag_and i _ hi hm, tag_shift i _ hi hm, hs]
        simp
    · right
      refine ⟨q, rfl, h1, hql, fun h hq' => hq ⟨hq', h.1⟩, ?_⟩
      unfold deserializeFieldHeader
      simp only [Spec.header, List.append_assoc, deserializeVarint_varintBytes hlt]
      rw [tag_and i _ hi hm, tag_shift i _ hi hm]
      have h0 : w.length ≠ 0 := by omega
      by_cases h8 : w.length = 8
      · have hs : sizeMode w.length isInt = 1 := by simp [sizeMode, h8]
        rw [hs]; simp [h8]
      cases isInt with
      | true =>
        have hs : sizeMode w.length true = 2 := by simp [sizeMode, h8, h0]
        rw [hs]
        obtain ⟨k, hk, hpk⟩ := hint rfl h0 h8
        obtain ⟨b, bs, h1', h2⟩ := firstByte_varintBytes hk
        rw [← hpk] at h1' h2
        cases q with
        | nil => simp at hq
        | cons a q =>
          rw [h1'] at h1
          obtain ⟨rfl, -⟩ := List.cons_prefix_cons.mp h1
          simp [h2]
      | false =>
        have hs : sizeMode w.length false = 3 := by simp [sizeMode, h8, h0]
        rw [hs]
        simp [deserializeVarint_varintBytes hn]
        omega

/-! ### Cutting lists -/

theorem Tree.Cut.cons_fields {f : Bool} {l l' : List (Nat × Tree)} {p : Bytes} (i : Nat) (t : Tree)
    (h : Tree.Cut f (.fields l) p (.fields l')) :
    Tree.Cut f (.fields ((i, t) :: l)) (Spec.field i t.isInteger (t.wire true) ++ p) (.fields ((i, t) :: l')) := by
  generalize h1 : Tree.fields l = a at h
  generalize h2 : Tree.fields l' = a' at h
  cases h with
  | whole =>
    subst h1
    cases h2
    exact Tree.Cut.whole f (.fields ((i, t) :: l))
  | header _ before after j x q hq hl =>
    cases h1
    cases h2
    have := Tree.Cut.header f ((i, t) :: l') after j x q hq hl
    rw [Tree.wireFields, List.append_assoc] at this
    exact this
  | value _ before after j x x' q hq hl hp =>
    cases h1
    cases h2
    have := Tree.Cut.value f ((i, t) :: before) after j x x' q hq hl hp
    rw [Tree.wireFields, List.append_assoc] at this
    exact this
  | _ => cases h1

theorem Tree.Cut.cons_array {f : Bool} {l l' : List Tree} {p : Bytes} (t : Tree)
    (h : Tree.Cut f (.array l) p (.array l')) :
    Tree.Cut f (.array (t :: l)) (varintBytes (t.wire false).length ++ (t.wire false ++ p)) (.array (t :: l')) := by
  generalize h1 : Tree.array l = a at h
  generalize h2 : Tree.array l' = a' at h
  cases h with
  | whole =>
    subst h1
    cases h2
    have := Tree.Cut.whole f (.array (t :: l))
    rw [Tree.wire, Tree.wireElems, List.append_assoc] at this
    exact this
  | size _ before after x q hq hl =>
    cases h1
    cases h2
    have := Tree.Cut.size f (t :: l') after x q hq hl
    rw [Tree.wireElems, List.append_assoc, List.append_assoc] at this
    exact this
  | elem _ before after x x' q hq hl =>
    cases h1
    cases h2
    have := Tree.Cut.elem f (t :: before) after x x' q hq hl
    rw [Tree.wireElems, List.append_assoc, List.append_assoc] at this
    exact this
  | _ => cases h1

/-! ### Everything can be cut -/

mutual
theorem Tree.cut_total (f : Bool) : (t : Tree) → ∀ p : Bytes, p <+: t.wire f → ∃ t', Tree.Cut f t p t'
  | .unit, p, h => by
    have : p = [] := by simpa [Tree.wire] using h
    subst this
    exact ⟨_, Tree.Cut.whole f .unit⟩
  | .scalar s v, p, h => by
    by_cases hl : p.length < ((Tree.scalar s v).wire f).length
    · exact ⟨_, Tree.Cut.scalar f s v p h hl⟩
    · rw [h.eq_of_length_le (by omega)]; exact ⟨_, Tree.Cut.whole f _⟩
  | .units n, p, h => by
    by_cases hl : p.length < ((Tree.units n).wire f).length
    · exact ⟨_, Tree.Cut.units f n p h hl⟩
    · rw [h.eq_of_length_le (by omega)]; exact ⟨_, Tree.Cut.whole f _⟩
  | .bytes b, p, h => by
    by_cases hl : p.length < b.length
    · exact ⟨_, Tree.Cut.bytes f b p h hl⟩
    · rw [h.eq_of_length_le (by simp only [Tree.wire]; omega)]; exact ⟨_, Tree.Cut.whole f _⟩
  | .string u, p, h => by
    by_cases hl : p.length < u.bytes.length
    · by_cases hv : validUtf8 p = true
      · exact ⟨_, Tree.Cut.string f u ⟨p, hv⟩ h hl⟩
      · exact ⟨_, Tree.Cut.character f u p h hl (by simpa using hv)⟩
    · rw [h.eq_of_length_le (by simp only [Tree.wire]; omega)]; exact ⟨_, Tree.Cut.whole f _⟩
  | .scalars s vs, p, h => by
    obtain ⟨vs', h1, -⟩ := cut_scalars f s vs p h
    exact ⟨_, h1⟩
  | .array l, p, h => by
    obtain ⟨l', h1⟩ := Tree.cut_total_elems f l p h
    exact ⟨_, h1⟩
  | .fields l, p, h => by
    obtain ⟨l', h1⟩ := Tree.cut_total_fields f l p h
    exact ⟨_, h1⟩

theorem Tree.cut_total_elems (f : Bool) : (l : List Tree) → ∀ p : Bytes, p <+: Tree.wireElems l →
    ∃ l', Tree.Cut f (.array l) p (.array l')
  | [], p, h => by
    have : p = [] := by simpa [Tree.wireElems] using h
    subst this
    exact ⟨[], Tree.Cut.whole f (.array [])⟩
  | t :: l, p, h => by
    rw [Tree.wireElems, List.append_assoc] at h
    rcases prefix_split h with ⟨h1, h2⟩ | ⟨p', rfl, h1⟩
    · exact ⟨[], Tree.Cut.size f [] l t p h1 h2⟩
    · rcases prefix_split h1 with ⟨h3, h2⟩ | ⟨p', rfl, h3⟩
      · obtain ⟨t', h3⟩ := Tree.cut_total false t p' h3
        exact ⟨[t'], Tree.Cut.elem f [] l t t' p' h3 h2⟩
      · obtain ⟨l', h3⟩ := Tree.cut_total_elems f l p' h3
        exact ⟨t :: l', h3.cons_array t⟩

theorem Tree.cut_total_fields (f : Bool) : (l : List (Nat × Tree)) → ∀ p : Bytes, p <+: Tree.wireFields l →
    ∃ l', Tree.Cut f (.fields l) p (.fields l')
  | [], p, h => by
    have : p = [] := by simpa [Tree.wireFields] using h
    subst this
    exact ⟨[], Tree.Cut.whole f (.fields [])⟩
  | (i, t) :: l, p, h => by
    rw [Tree.wireFields] at h
    rcases prefix_split h with ⟨h1, h2⟩ | ⟨p', rfl, h1⟩
    · rcases prefix_split h1 with ⟨h3, h4⟩ | ⟨q, rfl, h3⟩
      · exact ⟨[], Tree.Cut.header f [] l i t p h3 (.inl h4)⟩
      · by_cases hq : t.Peeked ∧ q = []
        · obtain ⟨hq, rfl⟩ := hq
          exact ⟨[], Tree.Cut.header f [] l i t _ (by simp) (.inr hq)⟩
        · obtain ⟨t', h5⟩ := Tree.cut_total true t q h3
          refine ⟨[(i, t')], Tree.Cut.value f [] l i t t' q h5 ?_ (fun h e => hq ⟨h, e⟩)⟩
          simp only [Spec.field, List.length_append] at h2
          omega
    · obtain ⟨l', h3⟩ := Tree.cut_total_fields f l p' h1
      exact ⟨(i, t) :: l', h3.cons_fields i t⟩
end

/-! ### Loops -/

/-- The result is what the content shows; or decoding does not end, which requires `H`. -/
def CutAgrees {α : Type} (H : Prop) (r : Except Err α) (o : Option α) : Prop := Agrees r o ∨ (r = .error .hang ∧ H)

/-- The result of a step of a struct's decoder for the last field. -/
def StepCut {σ : Type} (H : Prop) (r : Except Err (Option (σ × Bytes))) (o : Option σ) : Prop :=
  (r = .ok none ∧ H) ∨ CutAgrees H r (o.map fun st => some (st, []))

theorem structLoop_cut {σ : Type} (H : Prop) (step : Nat → Nat → Bytes → σ → Except Err (Option (σ × Bytes)))
    (ref : σ → Nat × Tree → Option σ) (isField : Bool) (l : List (Nat × Tree))
    (hi : ∀ p ∈ l, p.1 < 2 ^ 62)
    (hstep : ∀ p ∈ l, ∀ st, StepAgrees (step p.1 (p.2.wire true).length (p.2.wire true) st) st (ref st p))
    (hcut : ∀ p ∈ l, ∀ q, q <+: p.2.wire true → q.length < (p.2.wire true).length →
      ∃ t', Tree.Cut true p.2 q t' ∧ ∀ st, StepCut H (step p.1 (p.2.wire true).length q st) (ref st (p.1, t'))) :
    ∀ (p : Bytes), p <+: Tree.wireFields l → (Tree.wireFields l).length < 2 ^ 64 →
      ∃ l', Tree.Cut isField (.fields l) p (.fields l') ∧ ∀ fuel, p.length < fuel → ∀ st,
        CutAgrees H (structLoop step fuel p st) (l'.foldlM ref st) := by
  induction l with
  | nil =>
    intro p hp _
    have : p = [] := by simpa [Tree.wireFields] using hp
    subst this
    refine ⟨[], Tree.Cut.whole isField (.fields []), fun fuel h st => ?_⟩
    cases fuel with
    | zero => omega
    | succ fuel => exact .inl rfl
  | cons x l ih =>
    intro p hp hlt
    obtain ⟨i, t⟩ := x
    have hpos := field_pos i t.isInteger (t.wire true)
    rw [Tree.wireFields] at hp hlt
    rw [List.length_append] at hlt
    have ih := ih (fun p hp => hi p (by simp [hp])) (fun p hp => hstep p (by simp [hp])) (fun p hp => hcut p (by simp [hp]))
    rcases prefix_split hp with ⟨h1, h2⟩ | ⟨p', rfl, h1⟩
    · rcases deserializeFieldHeader_cut i t.isInteger (t.wire true) p (hi (i, t) (by simp)) (by omega) t.wire_integer h1 h2 with
        ⟨h3, h4, h5⟩ | ⟨q, rfl, h4, h5, h5', h3⟩
      · refine ⟨[], Tree.Cut.header isField [] l i t p h4 h5, fun fuel h st => ?_⟩
        cases fuel with
        | zero => omega
        | succ fuel => rw [structLoop, h3]; exact .inl rfl
      · obtain ⟨t', h6, hc⟩ := hcut (i, t) (by simp) q h4 h5
        refine ⟨[(i, t')], Tree.Cut.value isField [] l i t t' q h6 h5 h5', fun fuel h st => ?_⟩
        cases fuel with
        | zero => omega
        | succ fuel =>
          have hc := hc st
          simp only at hc
          have ht : q.take (t.wire true).length = q := List.take_of_length_le (by omega)
          have hd : q.drop (t.wire true).length = [] := List.drop_eq_nil_of_le (by omega)
          rw [structLoop, h3, List.foldlM_cons]
          simp only [ht, hd]
          rcases hc with ⟨hc, hH⟩ | hc | ⟨hc, hH⟩
          · rw [hc]
            simp only [skip]
            rw [if_neg (by omega)]
            exact .inr ⟨rfl, hH⟩
          · cases hr : ref st (i, t') with
            | none =>
              rw [hr] at hc
              obtain ⟨e, h7, h8⟩ := hc
              rw [h7]
              exact .inl ⟨e, rfl, h8⟩
            | some st' =>
              rw [hr] at hc
              have hc : step i (t.wire true).length q st = .ok (some (st', [])) := hc
              rw [hc]
              simp only [List.append_nil]
              cases fuel with
              | zero =>
                have := varintBytes_pos (4 * i + sizeMode (t.wire true).length t.isInteger)
                simp only [Spec.header, List.length_append] at h
                omega
              | succ fuel => exact .inl rfl
          · rw [hc]
            exact .inr ⟨rfl, hH⟩
    · obtain ⟨l', h4, h5⟩ := ih p' h1 (by omega)
      refine ⟨(i, t) :: l', h4.cons_fields i t, fun fuel h st => ?_⟩
      rw [List.length_append] at h
      cases fuel with
      | zero => omega
      | succ fuel =>
        have hs := hstep (i, t) (by simp) st
        simp only at hs
        rw [structLoop, deserializeFieldHeader_tree i t _ (hi (i, t) (by simp)) (by omega), List.foldlM_cons]
        simp only [take_left', drop_left']
        rcases hs with ⟨h2, h3⟩ | ⟨st', h2, h3⟩ | ⟨e, h2, h3, h4⟩
        · rw [h2, h3]
          simp only [skip, List.length_append, Nat.le_add_right, if_true, drop_left']
          exact h5 fuel (by omega) st
        · rw [h2, h3]
          simp only [List.nil_append]
          exact h5 fuel (by omega) st'
        · rw [h2, h4]
          exact .inl ⟨e, rfl, h3⟩

/-- The result of a step of a choice's decoder for the last field. -/
def SelectCut {α : Type} (H : Prop) (r : Except Err (Option (α × Bytes))) (o : Option (Option α)) : Prop :=
  (r = .ok none ∧ H) ∨ (r = .error .hang ∧ H) ∨ (o ≠ none ∧ SelectAgrees r o)

theorem choiceLoop_cut {α β : Type} (H : Prop)
    (step : Nat → Nat → Bytes → Except Err (Option ((α ⊕ β) × Bytes)))
    (ref : Nat → Tree → Option (Option (α ⊕ β))) (isField : Bool) (l : List (Nat × Tree))
    (hi : ∀ p ∈ l, p.1 < 2 ^ 62)
    (hstep : ∀ p ∈ l, SelectAgrees (step p.1 (p.2.wire true).length (p.2.wire true)) (ref p.1 p.2))
    (hcut : ∀ p ∈ l, ∀ q, q <+: p.2.wire true → q.length < (p.2.wire true).length →
      ∃ t', Tree.Cut true p.2 q t' ∧ SelectCut H (step p.1 (p.2.wire true).length q) (ref p.1 t')) :
    ∀ (p : Bytes), p <+: Tree.wireFields l → (Tree.wireFields l).length < 2 ^ 64 →
      ∃ l', Tree.Cut isField (.fields l) p (.fields l') ∧ ∀ fuel, p.length < fuel →
        CutAgrees H (choiceLoop step fuel p) (readChain ref l') := by
  induction l with
  | nil =>
    intro p hp _
    have : p = [] := by simpa [Tree.wireFields] using hp
    subst this
    refine ⟨[], Tree.Cut.whole isField (.fields []), fun fuel h => ?_⟩
    cases fuel with
    | zero => omega
    | succ fuel => exact .inl ⟨.eof, rfl, .inl rfl⟩
  | cons x l ih =>
    intro p hp hlt
    obtain ⟨i, t⟩ := x
    have hpos := field_pos i t.isInteger (t.wire true)
    rw [Tree.wireFields] at hp hlt
    rw [List.length_append] at hlt
    have ih := ih (fun p hp => hi p (by simp [hp])) (fun p hp => hstep p (by simp [hp])) (fun p hp => hcut p (by simp [hp]))
    rcases prefix_split hp with ⟨h1, h2⟩ | ⟨p', rfl, h1⟩
    · rcases deserializeFieldHeader_cut i t.isInteger (t.wire true) p (hi (i, t) (by simp)) (by omega) t.wire_integer h1 h2 with
        ⟨h3, h4, h5⟩ | ⟨q, rfl, h4, h5, h5', h3⟩
      · refine ⟨[], Tree.Cut.header isField [] l i t p h4 h5, fun fuel h => ?_⟩
        cases fuel with
        | zero => omega
        | succ fuel => rw [choiceLoop, h3]; exact .inl ⟨.eof, rfl, .inl rfl⟩
      · obtain ⟨t', h6, hc⟩ := hcut (i, t) (by simp) q h4 h5
        refine ⟨[(i, t')], Tree.Cut.value isField [] l i t t' q h6 h5 h5', fun fuel h => ?_⟩
        cases fuel with
        | zero => omega
        | succ fuel =>
          simp only at hc
          have ht : q.take (t.wire true).length = q := List.take_of_length_le (by omega)
          have hd : q.drop (t.wire true).length = [] := List.drop_eq_nil_of_le (by omega)
          rw [choiceLoop, h3, readChain]
          simp only [ht, hd]
          rcases hc with ⟨hc, hH⟩ | ⟨hc, hH⟩ | ⟨ho, hc⟩
          · rw [hc]
            simp only [skip]
            rw [if_neg (by omega)]
            exact .inr ⟨rfl, hH⟩
          · rw [hc]
            exact .inr ⟨rfl, hH⟩
          · cases hr : ref i t' with
            | none => exact absurd hr ho
            | some o =>
              rw [hr] at hc
              cases o with
              | none =>
                obtain ⟨e, h7, h8⟩ := hc
                rw [h7]
                exact .inl ⟨e, rfl, h8⟩
              | some a =>
                simp only [SelectAgrees] at hc
                rw [hc]
                cases a with
                | inr b => exact .inl rfl
                | inl a =>
                  simp only [List.append_nil]
                  cases fuel with
                  | zero =>
                    have := varintBytes_pos (4 * i + sizeMode (t.wire true).length t.isInteger)
                    simp only [Spec.header, List.length_append] at h
                    omega
                  | succ fuel => exact .inl ⟨.eof, rfl, .inl rfl⟩
    · obtain ⟨l', h4, h5⟩ := ih p' h1 (by omega)
      refine ⟨(i, t) :: l', h4.cons_fields i t, fun fuel h => ?_⟩
      rw [List.length_append] at h
      cases fuel with
      | zero => omega
      | succ fuel =>
        have hs := hstep (i, t) (by simp)
        simp only at hs
        have h5 := h5 fuel (by omega)
        rw [choiceLoop, deserializeFieldHeader_tree i t _ (hi (i, t) (by simp)) (by omega), readChain]
        simp only [take_left', drop_left']
        cases hr : ref i t with
        | none =>
          rw [hr] at hs
          simp only [SelectAgrees] at hs
          rw [hs]
          simp only [skip, List.length_append, Nat.le_add_right, if_true, drop_left']
          exact h5
        | some o =>
          rw [hr] at hs
          cases o with
          | none =>
            obtain ⟨e, h1, h2⟩ := hs
            rw [h1]
            exact .inl ⟨e, rfl, h2⟩
          | some ab =>
            simp only [SelectAgrees] at hs
            rw [hs]
            cases ab with
            | inr b => exact .inl rfl
            | inl a =>
              simp only [List.nil_append]
              rcases h5 with h5 | ⟨h5, hH⟩
              · cases hc : readChain ref l' with
                | none =>
                  rw [hc] at h5
                  obtain ⟨e, h6, h7⟩ := h5
                  rw [h6]
                  exact .inl ⟨e, rfl, h7⟩
                | some c =>
                  rw [hc] at h5
                  have h5 : choiceLoop step fuel p' = .ok c := h5
                  rw [h5]
                  exact .inl rfl
              · rw [h5]
                exact .inr ⟨rfl, hH⟩

theorem arrayLoop_cut {α : Type} (H : Prop) (elem : Nat → Bytes → Res α) (ref : Tree → Option α) (isField : Bool)
    (l : List Tree)
    (helem : ∀ t ∈ l, Agrees (elem (t.wire false).length (t.wire false)) ((ref t).map (fun a => (a, []))))
    (hcut : ∀ t ∈ l, ∀ q, q <+: t.wire false → q.length < (t.wire false).length →
      ∃ t', Tree.Cut false t q t' ∧ CutAgrees H (elem (t.wire false).length q) ((ref t').map (fun a => (a, [])))) :
    ∀ (p : Bytes), p <+: Tree.wireElems l → (Tree.wireElems l).length < 2 ^ 64 →
      ∃ l', Tree.Cut isField (.array l) p (.array l') ∧ ∀ fuel, p.length < fuel →
        CutAgrees H (arrayLoop elem fuel p) (l'.mapM ref) := by
  induction l with
  | nil =>
    intro p hp _
    have : p = [] := by simpa [Tree.wireElems] using hp
    subst this
    refine ⟨[], Tree.Cut.whole isField (.array []), fun fuel h => ?_⟩
    cases fuel with
    | zero => omega
    | succ fuel => exact .inl rfl
  | cons t l ih =>
    intro p hp hlt
    have hpos := varintBytes_pos (t.wire false).length
    rw [Tree.wireElems, List.append_assoc] at hp hlt
    rw [List.length_append, List.length_append] at hlt
    have hn : (t.wire false).length < 2 ^ 64 := by omega
    have ih := ih (fun p hp => helem p (by simp [hp])) (fun p hp => hcut p (by simp [hp]))
    rcases prefix_split hp with ⟨h1, h2⟩ | ⟨p', rfl, h1⟩
    · refine ⟨[], Tree.Cut.size isField [] l t p h1 h2, fun fuel h => ?_⟩
      cases fuel with
      | zero => omega
      | succ fuel => rw [arrayLoop, deserializeVarint_cut hn h1 h2]; exact .inl rfl
    · rcases prefix_split h1 with ⟨h0, h2⟩ | ⟨p', rfl, h0⟩
      · obtain ⟨t', h3, hc⟩ := hcut t (by simp) p' h0 h2
        refine ⟨[t'], Tree.Cut.elem isField [] l t t' p' h3 h2, fun fuel h => ?_⟩
        cases fuel with
        | zero => omega
        | succ fuel =>
          rw [List.length_append] at h
          have ht : p'.take (t.wire false).length = p' := List.take_of_length_le (by omega)
          have hd : p'.drop (t.wire false).length = [] := List.drop_eq_nil_of_le (by omega)
          rw [arrayLoop, deserializeVarint_varintBytes hn, List.mapM_cons]
          simp only [UInt64.toNat_ofNat_of_lt' hn, ht, hd]
          rcases hc with hc | ⟨hc, hH⟩
          · cases hr : ref t' with
            | none =>
              rw [hr] at hc
              obtain ⟨e, h7, h8⟩ := hc
              rw [h7]
              exact .inl ⟨e, rfl, h8⟩
            | some a =>
              rw [hr] at hc
              have hc : elem (t.wire false).length p' = .ok (a, []) := hc
              rw [hc]
              cases fuel with
              | zero => omega
              | succ fuel => exact .inl rfl
          · rw [hc]
            exact .inr ⟨rfl, hH⟩
      · obtain ⟨l', h4, h5⟩ := ih p' h0 (by omega)
        refine ⟨t :: l', h4.cons_array t, fun fuel h => ?_⟩
        rw [List.length_append, List.length_append] at h
        cases fuel with
        | zero => omega
        | succ fuel =>
          have hs := helem t (by simp)
          have h5 := h5 fuel (by omega)
          rw [arrayLoop, deserializeVarint_varintBytes hn, List.mapM_cons]
          simp only [UInt64.toNat_ofNat_of_lt' hn, take_left', drop_left']
          cases hr : ref t with
          | none =>
            rw [hr] at hs
            obtain ⟨e, h1, h2⟩ := hs
            rw [h1]
            exact .inl ⟨e, rfl, h2⟩
          | some a =>
            rw [hr] at hs
            have hs : elem (t.wire false).length (t.wire false) = .ok (a, []) := hs
            rw [hs]
            simp only [List.nil_append]
            rcases h5 with h5 | ⟨h5, hH⟩
            · cases hc : l'.mapM ref with
              | none =>
                rw [hc] at h5
                obtain ⟨e, h6, h7⟩ := h5
                rw [h6]
                exact .inl ⟨e, rfl, h7⟩
              | some c =>
                rw [hc] at h5
                have h5 : arrayLoop elem fuel p' = .ok c := h5
                rw [h5]
                exact .inl rfl
            · rw [h5]
              exact .inr ⟨rfl, hH⟩

/-! ### Main theorem -/

theorem CutAgrees.mono {α : Type} {H H' : Prop} {r : Except Err α} {o : Option α} (hH : H → H') (h : CutAgrees H r o) :
    CutAgrees H' r o := h.imp id (fun h => ⟨h.1, hH h.2⟩)

/-- Mapping a result. -/
theorem CutAgrees.map {α β : Type} {H : Prop} {r : Except Err α} {o : Option α} (f : α → β) (h : CutAgrees H r o) :
    CutAgrees H (match r with | .error e => .error e | .ok a => .ok (f a)) (o.map f) := by
  rcases h with h | ⟨h, hH⟩
  · cases o with
    | none =>
      obtain ⟨e, h1, h2⟩ := h
      rw [h1]
      exact .inl ⟨e, rfl, h2⟩
    | some a =>
      have h : r = .ok a := h
      rw [h]
      exact .inl rfl
  · rw [h]
    exact .inr ⟨rfl, hH⟩

mutual
theorem CTy.deser_cut (lim : Nat) (hlim : lim < 2 ^ 64) (isField : Bool) : (c : CTy) → c.WF →
    (t : Tree) → c.Fits t → 8 * (t.wire isField).length ≤ lim → (n : Nat) → (isField = true → n = (t.wire isField).length) → 8 * n ≤ lim →
    (p : Bytes) → p <+: t.wire isField → p.length < (t.wire isField).length →
    ∃ t', Tree.Cut isField t p t' ∧ CutAgrees (¬ c.Knows t) (c.deser lim isField n p) ((c.read t').map (fun m => (m, [])))
  | .bytes, _, .bytes b, _, _, n, _, hn, p, hp, hl => by
    refine ⟨.bytes p, Tree.Cut.bytes isField b p hp hl, .inl ?_⟩
    exact if_pos (by omega)
  | .string, _, .string u, _, _, n, _, hn, p, hp, hl => by
    by_cases hv : validUtf8 p = true
    · refine ⟨.string ⟨p, hv⟩, Tree.Cut.string isField u ⟨p, hv⟩ hp hl, .inl ?_⟩
      exact (if_pos (by omega)).trans (dif_pos hv)
    · refine ⟨.bytes p, Tree.Cut.character isField u p hp hl (by simpa using hv), .inl ⟨.invalid, ?_, .inr rfl⟩⟩
      exact (if_pos (by omega)).trans (dif_neg hv)
  | .units, _, .units k, _, _, n, hnn, hn, p, hp, hl => by
    refine ⟨.bytes p, Tree.Cut.units isField k p hp hl, .inl ⟨.eof, ?_, .inl rfl⟩⟩
    simp only [Tree.wire] at hp hl hnn
    simp only [CTy.deser]
    cases isField with
    | true =>
      simp only [if_true] at hp hl hnn ⊢
      rw [hnn trivial]
      exact readU64Field_cut k.toNat_lt hp hl
    | false =>
      simp only [Bool.false_eq_true, if_false] at hp hl
      simp [readU64Elem, deserializeVarint_cut k.toNat_lt hp hl]
      rfl
  | .scalars s, _, .scalars s' vs, hf, _, n, _, hn, p, hp, hl => by
    simp only [CTy.Fits] at hf
    subst hf
    obtain ⟨vs', h1, h2⟩ := cut_scalars isField s' vs p hp
    refine ⟨_, h1, .inl ?_⟩
    simp only [CTy.read, dif_pos]
    have h3 : ¬ (s' = .f64 ∧ ¬ 8 * n ≤ lim) := fun hh => hh.2 hn
    rw [CTy.deser]
    exact (if_neg h3).trans (by rw [h2 _ (by omega)])
  | .array c, hw, .array l, hf, h, n, _, hn, p, hp, hl => by
    simp only [CTy.WF] at hw
    simp only [CTy.Fits] at hf
    simp only [Tree.wire] at h hp hl
    have hsz : ∀ t ∈ l, 8 * (t.wire false).length ≤ lim := by
      intro t ht
      have := length_le_flatMap (fun t => varintBytes (t.wire false).length ++ t.wire false) ht
      rw [← wireElems_eq, List.length_append] at this
      omega
    obtain ⟨l', h1, h2⟩ := arrayLoop_cut (¬ (CTy.array c).Knows (.array l)) (CTy.deser lim false c) c.read isField l
      (fun t ht => CTy.deser_wire lim hlim false c hw t (hf t ht) (hsz t ht))
      (fun t ht q hq hql => by
        obtain ⟨t', h3, h4⟩ := CTy.deser_cut lim hlim false c hw t (hf t ht) (hsz t ht) _ (fun _ => rfl) (hsz t ht) q hq hql
        refine ⟨t', h3, h4.mono (fun hk hk' => hk ?_)⟩
        simp only [CTy.Knows] at hk'
        exact hk' t ht) p hp (by omega)
    refine ⟨_, h1, ?_⟩
    have := (h2 (p.length + 1) (by omega)).map (fun m => (m, ([] : Bytes)))
    simp only [CTy.deser, CTy.read]
    cases hq : arrayLoop (CTy.deser lim false c) (p.length + 1) p <;> (rw [hq] at this; exact this)
  | .struct fs, hw, .fields l, hf, h, n, _, hn, p, hp, hl => by
    simp only [CTy.WF] at hw
    simp only [CTy.Fits] at hf
    simp only [Tree.wire] at h hp hl
    have hsz : ∀ p ∈ l, 8 * (p.2.wire true).length ≤ lim := by
      intro p hp
      have := length_le_flatMap (fun p : Nat × Tree => Spec.field p.1 p.2.isInteger (p.2.wire true)) hp
      rw [← wireFields_eq] at this
      have := field_pos p.1 p.2.isInteger (p.2.wire true)
      omega
    obtain ⟨l', h1, h2⟩ := structLoop_cut (¬ (CTy.struct fs).Knows (.fields l)) (Fields.step lim fs) fs.stepTree isField l
      (fun p hp => (hf p hp).1)
      (fun p hp st => Fields.step_wire lim hlim fs hw.2 p.1 p.2 (hf p hp).2 (hsz p hp) st)
      (fun x hx q hq hql => by
        obtain ⟨t', h3, h4⟩ := Fields.step_cut lim hlim fs hw.2 x.1 x.2 (hf x hx).2 (hsz x hx) q hq hql
        refine ⟨t', h3, fun st => ?_⟩
        rcases h4 st with ⟨h5, h6⟩ | h5
        · refine .inl ⟨h5, fun hk => ?_⟩
          simp only [CTy.Knows] at hk
          exact h6 (hk x hx).1
        · refine .inr (h5.mono (fun hk hk' => hk ?_))
          simp only [CTy.Knows] at hk'
          exact (hk' x hx).2) p hp (by omega)
    refine ⟨_, h1, ?_⟩
    have := h2 (p.length + 1) (by omega) fs.emptySlots
    simp only [CTy.deser, CTy.read]
    rw [← Fields.foldlM_finish fs hw.1 l']
    rcases this with this | ⟨this, hH⟩
    · cases hr : l'.foldlM fs.stepTree fs.emptySlots with
      | none =>
        rw [hr] at this
        obtain ⟨e, h1, h2⟩ := this
        rw [h1]
        exact .inl ⟨e, rfl, h2⟩
      | some st =>
        rw [hr] at this
        simp only [Agrees] at this
        rw [this]
        simp only [Option.bind_some]
        cases fs.finish st with
        | none => exact .inl ⟨.invalid, rfl, .inr rfl⟩
        | some m => exact .inl rfl
    · rw [this]
      exact .inr ⟨rfl, hH⟩
  | .choice fs, hw, .fields l, hf, h, n, _, hn, p, hp, hl => by
    simp only [CTy.WF] at hw
    simp only [CTy.Fits] at hf
    simp only [Tree.wire] at h hp hl
    have hsz : ∀ p ∈ l, 8 * (p.2.wire true).length ≤ lim := by
      intro p hp
      have := length_le_flatMap (fun p : Nat × Tree => Spec.field p.1 p.2.isInteger (p.2.wire true)) hp
      rw [← wireFields_eq] at this
      have := field_pos p.1 p.2.isInteger (p.2.wire true)
      omega
    obtain ⟨l', h1, h2⟩ := choiceLoop_cut (¬ (CTy.choice fs).Knows (.fields l)) (Fields.select lim fs) fs.readVariant isField l
      (fun p hp => (hf p hp).1)
      (fun p hp => Fields.select_wire lim hlim fs hw.2 p.1 p.2 (hf p hp).2 (hsz p hp))
      (fun x hx q hq hql => by
        obtain ⟨t', h3, h4⟩ := Fields.select_cut lim hlim fs hw.2 x.1 x.2 (hf x hx).2 (hsz x hx) q hq hql
        refine ⟨t', h3, ?_⟩
        rcases h4 with ⟨h5, h6⟩ | ⟨h5, h6⟩ | h5
        · refine .inl ⟨h5, fun hk => ?_⟩
          simp only [CTy.Knows] at hk
          exact h6 (hk x hx).1
        · refine .inr (.inl ⟨h5, fun hk => h6 ?_⟩)
          simp only [CTy.Knows] at hk
          exact (hk x hx).2
        · exact .inr (.inr h5)) p hp (by omega)
    refine ⟨_, h1, ?_⟩
    have := (h2 (p.length + 1) (by omega)).map (fun m => (m, ([] : Bytes)))
    simp only [CTy.deser, CTy.read]
    cases hq : choiceLoop (Fields.select lim fs) (p.length + 1) p <;> (rw [hq] at this; exact this)

theorem Ty.deser_cut (lim : Nat) (hlim : lim < 2 ^ 64) : (ty : Ty) → ty.WF →
    (t : Tree) → ty.Fits t → 8 * (t.wire true).length ≤ lim → (p : Bytes) → p <+: t.wire true → p.length < (t.wire true).length →
    ∃ t', Tree.Cut true t p t' ∧ CutAgrees (¬ ty.Knows t) (ty.deser lim (t.wire true).length p) ((ty.read t').map (fun m => (m, [])))
  | .unit, _, .unit, _, _, p, _, hl => by simp [Tree.wire] at hl
  | .scalar s, _, .scalar s' v, hf, _, p, hp, hl => by
    simp only [Ty.Fits] at hf
    subst hf
    refine ⟨.bytes p, Tree.Cut.scalar true s' v p hp hl, .inl ⟨.eof, ?_, .inl rfl⟩⟩
    simp only [Tree.wire, if_true] at hp hl ⊢
    exact readScalarField_cut s' v hp hl
  | .comp c, hw, t, hf, h, p, hp, hl => by
    simp only [Ty.WF] at hw
    simp only [Ty.Fits] at hf
    simp only [Ty.deser, Ty.read, Ty.Knows]
    exact CTy.deser_cut lim hlim true c hw t hf h _ (fun _ => rfl) h p hp hl

theorem Fields.step_cut (lim : Nat) (hlim : lim < 2 ^ 64) : (fs : Fields) → fs.WF →
    (j : Nat) → (t : Tree) → fs.FitsAt j t → 8 * (t.wire true).length ≤ lim →
    (q : Bytes) → q <+: t.wire true → q.length < (t.wire true).length →
    ∃ t', Tree.Cut true t q t' ∧ ∀ st : fs.Slots,
      (fs.step lim j (t.wire true).length q st = .ok none ∧ j ∉ fs.indices) ∨
      CutAgrees (¬ fs.KnowsAt j t) (fs.step lim j (t.wire true).length q st) ((fs.stepTree st (j, t')).map fun st => some (st, []))
  | .nil, _, j, t, _, _, q, hq, hl => by
    obtain ⟨t', h⟩ := Tree.cut_total true t q hq
    exact ⟨t', h, fun st => .inl ⟨rfl, by simp [Fields.indices]⟩⟩
  | .cons i r ty rest, hw, j, t, hf, h, q, hq, hl => by
    simp only [Fields.WF] at hw
    simp only [Fields.FitsAt] at hf
    by_cases hij : j = i
    · obtain ⟨t', h1, h2⟩ := Ty.deser_cut lim hlim ty hw.2.1 t (hf.1 hij) h q hq hl
      refine ⟨t', h1, fun st => .inr ?_⟩
      obtain ⟨o, os⟩ := st
      simp only [Fields.step, Fields.stepTree, if_pos hij]
      have h2 := h2.mono (H' := ¬ (Fields.cons i r ty rest).KnowsAt j t) (fun hk hk' => by
        simp only [Fields.KnowsAt] at hk'
        exact hk (hk'.1 hij))
      rcases h2 with h2 | ⟨h2, hH⟩
      · cases hr : ty.read t' with
        | none =>
          rw [hr] at h2
          obtain ⟨e, h3, h4⟩ := h2
          rw [h3]
          exact .inl ⟨e, rfl, h4⟩
        | some v =>
          rw [hr] at h2
          simp only [Option.map_some, Agrees] at h2
          rw [h2]
          exact .inl rfl
      · rw [h2]
        exact .inr ⟨rfl, hH⟩
    · obtain ⟨t', h1, h2⟩ := Fields.step_cut lim hlim rest hw.2.2 j t hf.2 h q hq hl
      refine ⟨t', h1, fun st => ?_⟩
      obtain ⟨o, os⟩ := st
      simp only [Fields.step, Fields.stepTree, if_neg hij]
      rcases h2 os with ⟨h3, h4⟩ | h3
      · rw [h3]
        exact .inl ⟨rfl, by simp only [Fields.indices, List.mem_cons, not_or]; exact ⟨hij, h4⟩⟩
      · refine .inr ?_
        have h3 := h3.mono (H' := ¬ (Fields.cons i r ty rest).KnowsAt j t) (fun hk hk' => by
          simp only [Fields.KnowsAt] at hk'
          exact hk hk'.2)
        rcases h3 with h3 | ⟨h3, hH⟩
        · cases hr : rest.stepTree os (j, t') with
          | none =>
            rw [hr] at h3
            obtain ⟨e, h4, h5⟩ := h3
            rw [h4]
            exact .inl ⟨e, rfl, h5⟩
          | some os' =>
            rw [hr] at h3
            simp only [Option.map_some, Agrees] at h3
            rw [h3]
            exact .inl rfl
        · rw [h3]
          exact .inr ⟨rfl, hH⟩

theorem Fields.select_cut (lim : Nat) (hlim : lim < 2 ^ 64) : (fs : Fields) → fs.WF →
    (j : Nat) → (t : Tree) → fs.FitsAt j t → 8 * (t.wire true).length ≤ lim →
    (q : Bytes) → q <+: t.wire true → q.length < (t.wire true).length →
    ∃ t', Tree.Cut true t q t' ∧
      ((fs.select lim j (t.wire true).length q = .ok none ∧ j ∉ fs.indices) ∨
       (fs.select lim j (t.wire true).length q = .error .hang ∧ ¬ fs.KnowsAt j t) ∨
       (fs.readVariant j t' ≠ none ∧ SelectAgrees (fs.select lim j (t.wire true).length q) (fs.readVariant j t')))
  | .nil, _, j, t, _, _, q, hq, hl => by
    obtain ⟨t', h⟩ := Tree.cut_total true t q hq
    exact ⟨t', h, .inl ⟨rfl, by simp [Fields.indices]⟩⟩
  | .cons i r ty rest, hw, j, t, hf, h, q, hq, hl => by
    simp only [Fields.WF] at hw
    simp only [Fields.FitsAt] at hf
    by_cases hij : j = i
    · obtain ⟨t', h1, h2⟩ := Ty.deser_cut lim hlim ty hw.2.1 t (hf.1 hij) h q hq hl
      refine ⟨t', h1, .inr ?_⟩
      simp only [Fields.select, Fields.readVariant, if_pos hij, Fields.KnowsAt]
      rcases h2 with h2 | ⟨h2, hH⟩
      · right
        cases hr : ty.read t' with
        | none =>
          rw [hr] at h2
          obtain ⟨e, h3, h4⟩ := h2
          rw [h3]
          exact ⟨by simp, ⟨e, rfl, h4⟩⟩
        | some v =>
          rw [hr] at h2
          simp only [Option.map_some, Agrees] at h2
          rw [h2]
          simp only
          by_cases hfb : r.hasFallback .inn = true
          · rw [dif_pos hfb, dif_pos hfb]; exact ⟨by simp, rfl⟩
          · rw [dif_neg hfb, dif_neg hfb]; exact ⟨by simp, rfl⟩
      · left
        rw [h2]
        exact ⟨rfl, fun hk => hH (hk.1 hij)⟩
    · obtain ⟨t', h1, h2⟩ := Fields.select_cut lim hlim rest hw.2.2 j t hf.2 h q hq hl
      refine ⟨t', h1, ?_⟩
      simp only [Fields.select, Fields.readVariant, if_neg hij, Fields.KnowsAt]
      rcases h2 with ⟨h3, h4⟩ | ⟨h3, h4⟩ | ⟨h3, h4⟩
      · rw [h3]
        exact .inl ⟨rfl, by simp only [Fields.indices, List.mem_cons, not_or]; exact ⟨hij, h4⟩⟩
      · rw [h3]
        exact .inr (.inl ⟨rfl, fun hk => h4 hk.2⟩)
      · refine .inr (.inr ?_)
        cases hr : rest.readVariant j t' with
        | none => exact absurd hr h3
        | some o =>
          rw [hr] at h4
          cases o with
          | none =>
            obtain ⟨e, h5, h6⟩ := h4
            rw [h5]
            exact ⟨by simp, e, rfl, h6⟩
          | some ab =>
            simp only [SelectAgrees] at h4
            rw [h4]
            cases ab <;> exact ⟨by simp, rfl⟩
end

end Typical

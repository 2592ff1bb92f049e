import Verif.WireLemmas

/-!
# Helper lemmas: the modelled decoder reads what the specification says

Main result: `CTy.deser_wire`.
-/

namespace Typical
open Spec

theorem scalarNat_lt : (s : Scalar) → (v : s.Val) → scalarNat s v < 2 ^ 64
  | .bool, (v : Bool) => by cases v <;> decide
  | .s64, (v : Int64) => by
    show (zigzag v.toInt).toNat < _
    rw [← zigzag_toNat]; exact UInt64.toNat_lt _
  | .u64, (v : UInt64) => v.toNat_lt
  | .f64, (v : UInt64) => v.toNat_lt

theorem deserializeVarint_varintBytes {n : Nat} (h : n < 2 ^ 64) (rest : Bytes) :
    deserializeVarint (varintBytes n ++ rest) = some (UInt64.ofNat n, rest) := by
  rw [varintBytes_eq h, C01_varint_round_trip]

theorem varintBytes_pos (n : Nat) : 0 < (varintBytes n).length := by
  simp only [varintBytes, List.length_map, spec_varint_length, varintLength]
  split <;> (try split) <;> (try split) <;> (try split) <;> (try split) <;> (try split) <;>
    (try split) <;> (try split) <;> omega

theorem fixed64_length (n : Nat) : (fixed64 n).length = 8 := by
  simp [fixed64, littleEndian_length]

theorem varintBytes_length_le7 {n : Nat} (h : n < 567382630219904) : (varintBytes n).length ≤ 7 := by
  simp only [varintBytes, List.length_map, spec_varint_length, varintLength]
  split <;> (try split) <;> (try split) <;> (try split) <;> (try split) <;> (try split) <;>
    (try split) <;> (try split) <;> omega

theorem fromLeBytes_fixed64 {n : Nat} (h : n < 2 ^ 64) : fromLeBytes (fixed64 n) = UInt64.ofNat n := by
  apply UInt64.toNat_inj.1
  rw [toNat_fromLeBytes _ (Nat.le_of_eq (fixed64_length n)), UInt64.toNat_ofNat_of_lt' h]
  have := leNat_of_littleEndian 8 n (fixed64 n) (by simp [fixed64, littleEndian])
  rw [this.1]
  omega

theorem readExact_fixed64 (n : Nat) (rest : Bytes) :
    readExact 8 (fixed64 n ++ rest) = some (fixed64 n, rest) := by
  have := fixed64_length n
  simp [readExact, this]

theorem intField_cases (n : Nat) :
    (n = 0 ∧ intField n = []) ∨
    ((intField n).length ≠ 0 ∧ (intField n).length ≠ 8 ∧ intField n = varintBytes n) ∨
    ((intField n).length = 8 ∧ intField n = fixed64 n) := by
  unfold intField
  by_cases h0 : n = 0
  · left; simp [h0]
  · rw [if_neg h0]
    by_cases h7 : n < 567382630219904
    · rw [if_pos h7]
      have := varintBytes_pos n
      have := varintBytes_length_le7 h7
      right; left; refine ⟨by omega, by omega, rfl⟩
    · rw [if_neg h7]
      right; right; exact ⟨fixed64_length n, rfl⟩

theorem readU64Field_intField {n : Nat} (h : n < 2 ^ 64) :
    readU64Field (intField n).length (intField n) = .ok (UInt64.ofNat n, []) := by
  rcases intField_cases n with ⟨h0, h1⟩ | ⟨h0, h8, h1⟩ | ⟨h8, h1⟩
  · rw [h1]; subst h0; rfl
  · unfold readU64Field
    split
    · omega
    · omega
    · rw [h1]
      have := deserializeVarint_varintBytes h []
      rw [List.append_nil] at this
      rw [this]
  · rw [h8, h1]
    have := readExact_fixed64 n []
    rw [List.append_nil] at this
    simp only [readU64Field, this, fromLeBytes_fixed64 h]

/-- From the integer representation back to the scalar. -/
def scalarOfU64 : (s : Scalar) → UInt64 → s.Val
  | .bool, v => v != 0
  | .s64, v => zigzagDecode v
  | .u64, v => v
  | .f64, v => v

theorem scalarOfU64_scalarNat : (s : Scalar) → (v : s.Val) →
    scalarOfU64 s (UInt64.ofNat (scalarNat s v)) = v
  | .bool, (v : Bool) => by cases v <;> rfl
  | .s64, (v : Int64) => by
    show zigzagDecode (UInt64.ofNat (zigzag v.toInt).toNat) = v
    rw [← zigzag_toNat, UInt64.ofNat_toNat]; exact C04_zigzag_decode_encode v
  | .u64, (v : UInt64) => UInt64.ofNat_toNat
  | .f64, (v : UInt64) => UInt64.ofNat_toNat

theorem readScalarField_wire (s : Scalar) (v : s.Val) :
    readScalarField s (scalarField s v).length (scalarField s v) = .ok (v, []) := by
  have hv := scalarOfU64_scalarNat s v
  have hlt := scalarNat_lt s v
  generalize hn : scalarNat s v = n at hv hlt
  have hi := readU64Field_intField hlt
  cases s
  case f64 =>
    simp only [scalarField, if_true, hn]
    subst hv
    by_cases h0 : n = 0
    · subst h0; rfl
    · rw [if_neg h0, fixed64_length]
      have := readExact_fixed64 n []
      rw [List.append_nil] at this
      simp only [readScalarField, this, fromLeBytes_fixed64 hlt]
      rfl
  all_goals
    simp only [scalarField, reduceCtorEq, if_false, hn]
    subst hv
    simp only [readScalarField, hi, scalarOfU64]
    try rfl

theorem readScalarElem_wire (s : Scalar) (v : s.Val) (rest : Bytes) :
    readScalarElem s (scalarElem s v ++ rest) = some (v, rest) := by
  have hv := scalarOfU64_scalarNat s v
  have hlt := scalarNat_lt s v
  generalize hn : scalarNat s v = n at hv hlt
  cases s
  case f64 =>
    simp only [scalarElem, if_true, hn]
    subst hv
    simp only [readScalarElem, readExact_fixed64, fromLeBytes_fixed64 hlt]
    rfl
  all_goals
    simp only [scalarElem, reduceCtorEq, if_false, hn]
    subst hv
    simp only [readScalarElem, deserializeVarint_varintBytes hlt, scalarOfU64]
    try rfl

theorem scalarElem_pos (s : Scalar) (v : s.Val) : 0 < (scalarElem s v).length := by
  unfold scalarElem
  split
  · rw [fixed64_length]; omega
  · exact varintBytes_pos _

theorem scalarLoop_wire (s : Scalar) (vs : List s.Val) : ∀ fuel,
    (vs.flatMap (scalarElem s)).length < fuel →
    scalarLoop (readScalarElem s) fuel (vs.flatMap (scalarElem s)) = .ok vs := by
  induction vs with
  | nil =>
    intro fuel h
    cases fuel with
    | zero => omega
    | succ fuel => cases s <;> rfl
  | cons v vs ih =>
    intro fuel h
    cases fuel with
    | zero => omega
    | succ fuel =>
      rw [List.flatMap_cons, List.length_append] at h
      have := scalarElem_pos s v
      simp only [List.flatMap_cons, scalarLoop, readScalarElem_wire]
      rw [ih fuel (by omega)]

/-! ### Headers -/

theorem tag_and (i k : Nat) (hi : i < 2 ^ 62) (hk : k < 4) :
    UInt64.ofNat (4 * i + k) &&& 3 = UInt64.ofNat k := by
  apply UInt64.toNat_inj.1
  rw [UInt64.toNat_and, UInt64.toNat_ofNat_of_lt' (by simp only [UInt64.size]; omega),
    UInt64.toNat_ofNat_of_lt' (by simp only [UInt64.size]; omega)]
  have : (3 : UInt64).toNat = 2 ^ 2 - 1 := rfl
  rw [this, Nat.and_two_pow_sub_one_eq_mod]
  omega

theorem tag_shift (i k : Nat) (hi : i < 2 ^ 62) (hk : k < 4) :
    (UInt64.ofNat (4 * i + k) >>> 2).toNat = i := by
  rw [UInt64.toNat_shiftRight, UInt64.toNat_ofNat_of_lt' (by simp only [UInt64.size]; omega)]
  simp only [UInt64.reduceToNat, Nat.reduceMod, Nat.shiftRight_eq_div_pow]
  omega

theorem firstByte_varintBytes {n : Nat} (h : n < 2 ^ 64) :
    ∃ b bs, varintBytes n = b :: bs ∧ varintSizeFromFirstByte b = (varintBytes n).length := by
  rw [varintBytes_eq h]; exact C02_varint_first_byte _

/-- Reading a header written before its payload. -/
theorem deserializeFieldHeader_wire (i : Nat) (isInt : Bool) (p rest : Bytes) (hi : i < 2 ^ 62)
    (hn : p.length < 2 ^ 64)
    (hint : isInt = true → p.length ≠ 0 → p.length ≠ 8 → ∃ k < 2 ^ 64, p = varintBytes k) :
    deserializeFieldHeader (Spec.field i isInt p ++ rest) = some (i, p.length, p ++ rest) := by
  have hm : sizeMode p.length isInt < 4 := by
    unfold sizeMode; split <;> (try split) <;> (try split) <;> omega
  have hlt : 4 * i + sizeMode p.length isInt < 2 ^ 64 := by omega
  unfold deserializeFieldHeader
  simp only [Spec.field, header, List.append_assoc, deserializeVarint_varintBytes hlt]
  rw [tag_and i _ hi hm, tag_shift i _ hi hm]
  by_cases h0 : p.length = 0
  · have hs : sizeMode p.length isInt = 0 := by simp [sizeMode, h0]
    rw [hs]; simp [h0]
  by_cases h8 : p.length = 8
  · have hs : sizeMode p.length isInt = 1 := by simp [sizeMode, h8]
    rw [hs]; simp [h8]
  cases isInt with
  | true =>
    have hs : sizeMode p.length true = 2 := by simp [sizeMode, h8, h0]
    rw [hs]
    obtain ⟨k, hk, hpk⟩ := hint rfl h0 h8
    obtain ⟨b, bs, h1, h2⟩ := firstByte_varintBytes hk
    rw [← hpk] at h1 h2
    simp only [h1] at h2 ⊢
    simp [h2]
  | false =>
    have hs : sizeMode p.length false = 3 := by simp [sizeMode, h8, h0]
    rw [hs]
    simp [deserializeVarint_varintBytes hn]
    omega

theorem field_pos (i : Nat) (b : Bool) (p : Bytes) : p.length < (Spec.field i b p).length := by
  have := varintBytes_pos (4 * i + sizeMode p.length b)
  simp only [Spec.field, header, List.length_append]
  omega

theorem Tree.wire_integer (t : Tree) (h : t.isInteger = true) (h0 : (t.wire true).length ≠ 0)
    (h8 : (t.wire true).length ≠ 8) : ∃ k < 2 ^ 64, t.wire true = varintBytes k := by
  cases t <;> simp only [Tree.isInteger, Bool.false_eq_true] at h
  rename_i s v
  have hs : s ≠ .f64 := by simpa using h
  simp only [Tree.wire, if_true, scalarField, if_neg hs] at h0 h8 ⊢
  have hlt := scalarNat_lt s v
  rcases intField_cases (scalarNat s v) with ⟨_, h1⟩ | ⟨_, _, h1⟩ | ⟨h1, _⟩
  · rw [h1] at h0; simp at h0
  · exact ⟨_, hlt, h1⟩
  · exact absurd h1 h8

/-- Reading the header of a field of a tree. -/
theorem deserializeFieldHeader_tree (i : Nat) (t : Tree) (rest : Bytes) (hi : i < 2 ^ 62)
    (hn : (t.wire true).length < 2 ^ 64) :
    deserializeFieldHeader (Spec.field i t.isInteger (t.wire true) ++ rest) =
      some (i, (t.wire true).length, t.wire true ++ rest) :=
  deserializeFieldHeader_wire i _ _ rest hi hn t.wire_integer

/-! ### Results -/

/-- Errors which the documentation mentions. -/
def Err.Benign (e : Err) : Prop := e = .eof ∨ e = .invalid

/-- A decoder's result agrees with the specification. -/
def Agrees {α : Type} (r : Except Err α) (o : Option α) : Prop :=
  match o with
  | some a => r = .ok a
  | none => ∃ e, r = .error e ∧ e.Benign

theorem take_left' (p rest : Bytes) : (p ++ rest).take p.length = p := by simp
theorem drop_left' (p rest : Bytes) : (p ++ rest).drop p.length = rest := by simp

/-- A step of a struct's decoder agrees with a reference step. -/
def StepAgrees {σ : Type} (r : Except Err (Option (σ × Bytes))) (st : σ) (o : Option σ) : Prop :=
  (r = .ok none ∧ o = some st) ∨ (∃ st', r = .ok (some (st', [])) ∧ o = some st') ∨
    (∃ e, r = .error e ∧ e.Benign ∧ o = none)

theorem structLoop_wire {σ : Type} (step : Nat → Nat → Bytes → σ → Except Err (Option (σ × Bytes)))
    (ref : σ → Nat × Tree → Option σ) (l : List (Nat × Tree))
    (hi : ∀ p ∈ l, p.1 < 2 ^ 62)
    (hstep : ∀ p ∈ l, ∀ st, StepAgrees
      (step p.1 (p.2.wire true).length (p.2.wire true) st) st (ref st p)) :
    ∀ (fuel : Nat) (st : σ), (Tree.wireFields l).length < fuel →
      (Tree.wireFields l).length < 2 ^ 64 →
      Agrees (structLoop step fuel (Tree.wireFields l) st) (l.foldlM ref st) := by
  induction l with
  | nil =>
    intro fuel st h _
    cases fuel with
    | zero => omega
    | succ fuel => rfl
  | cons p l ih =>
    intro fuel st h hlt
    cases fuel with
    | zero => omega
    | succ fuel =>
      obtain ⟨i, t⟩ := p
      have hp := field_pos i t.isInteger (t.wire true)
      rw [Tree.wireFields, List.length_append] at h hlt
      have ih := ih (fun p hp => hi p (by simp [hp])) (fun p hp => hstep p (by simp [hp])) fuel
      have hs := hstep (i, t) (by simp) st
      simp only at hs
      rw [Tree.wireFields, List.foldlM_cons, structLoop,
        deserializeFieldHeader_tree i t _ (hi (i, t) (by simp)) (by omega)]
      simp only [take_left', drop_left']
      rcases hs with ⟨h1, h2⟩ | ⟨st', h1, h2⟩ | ⟨e, h1, h2, h3⟩
      · rw [h1, h2]
        simp only [skip, List.length_append, Nat.le_add_right, if_true, drop_left']
        exact ih st (by omega) (by omega)
      · rw [h1, h2]
        exact ih st' (by omega) (by omega)
      · rw [h1, h3]
        exact ⟨e, rfl, h2⟩

/-- A step of a choice's decoder agrees with a reference step. -/
def SelectAgrees {α : Type} (r : Except Err (Option (α × Bytes))) (o : Option (Option α)) : Prop :=
  match o with
  | none => r = .ok none
  | some none => ∃ e, r = .error e ∧ e.Benign
  | some (some a) => r = .ok (some (a, []))

theorem choiceLoop_wire {α β : Type}
    (step : Nat → Nat → Bytes → Except Err (Option ((α ⊕ β) × Bytes)))
    (ref : Nat → Tree → Option (Option (α ⊕ β))) (l : List (Nat × Tree))
    (hi : ∀ p ∈ l, p.1 < 2 ^ 62)
    (hstep : ∀ p ∈ l, SelectAgrees
      (step p.1 (p.2.wire true).length (p.2.wire true)) (ref p.1 p.2)) :
    ∀ (fuel : Nat), (Tree.wireFields l).length < fuel →
      (Tree.wireFields l).length < 2 ^ 64 →
      Agrees (choiceLoop step fuel (Tree.wireFields l)) (readChain ref l) := by
  induction l with
  | nil =>
    intro fuel h _
    cases fuel with
    | zero => omega
    | succ fuel => exact ⟨.eof, rfl, .inl rfl⟩
  | cons p l ih =>
    intro fuel h hlt
    cases fuel with
    | zero => omega
    | succ fuel =>
      obtain ⟨i, t⟩ := p
      have hp := field_pos i t.isInteger (t.wire true)
      rw [Tree.wireFields, List.length_append] at h hlt
      have ih := ih (fun p hp => hi p (by simp [hp])) (fun p hp => hstep p (by simp [hp])) fuel
        (by omega) (by omega)
      have hs := hstep (i, t) (by simp)
      simp only at hs
      rw [Tree.wireFields, readChain, choiceLoop,
        deserializeFieldHeader_tree i t _ (hi (i, t) (by simp)) (by omega)]
      simp only [take_left', drop_left']
      cases hr : ref i t with
      | none =>
        rw [hr] at hs
        simp only [SelectAgrees] at hs
        rw [hs]
        simp only [skip, List.length_append, Nat.le_add_right, if_true, drop_left']
        exact ih
      | some o =>
        rw [hr] at hs
        cases o with
        | none =>
          obtain ⟨e, h1, h2⟩ := hs
          rw [h1]
          exact ⟨e, rfl, h2⟩
        | some ab =>
          simp only [SelectAgrees] at hs
          rw [hs]
          cases ab with
          | inr b => rfl
          | inl a =>
            simp only [List.nil_append]
            unfold Agrees at ih
            cases hc : readChain ref l with
            | none =>
              rw [hc] at ih
              obtain ⟨e, h1, h2⟩ := ih
              rw [h1]
              exact ⟨e, rfl, h2⟩
            | some c =>
              rw [hc] at ih
              simp only at ih
              rw [ih]
              rfl

theorem arrayLoop_wire {α : Type} (elem : Nat → Bytes → Res α) (ref : Tree → Option α)
    (l : List Tree)
    (helem : ∀ t ∈ l, Agrees (elem (t.wire false).length (t.wire false))
      ((ref t).map (fun a => (a, [])))) :
    ∀ (fuel : Nat), (Tree.wireElems l).length < fuel → (Tree.wireElems l).length < 2 ^ 64 →
      Agrees (arrayLoop elem fuel (Tree.wireElems l)) (l.mapM ref) := by
  induction l with
  | nil =>
    intro fuel h _
    cases fuel with
    | zero => omega
    | succ fuel => rfl
  | cons t l ih =>
    intro fuel h hlt
    cases fuel with
    | zero => omega
    | succ fuel =>
      have hp := varintBytes_pos (t.wire false).length
      rw [Tree.wireElems, List.length_append, List.length_append] at h hlt
      have ih := ih (fun p hp => helem p (by simp [hp])) fuel (by omega) (by omega)
      have hs := helem t (by simp)
      have hn : (t.wire false).length < 2 ^ 64 := by omega
      rw [Tree.wireElems, List.mapM_cons, arrayLoop, List.append_assoc,
        deserializeVarint_varintBytes hn]
      simp only [UInt64.toNat_ofNat_of_lt' hn, take_left', drop_left']
      cases hr : ref t with
      | none =>
        rw [hr] at hs
        obtain ⟨e, h1, h2⟩ := hs
        rw [h1]
        exact ⟨e, rfl, h2⟩
      | some a =>
        rw [hr] at hs
        simp only [Option.map_some, Agrees] at hs
        rw [hs]
        simp only [List.nil_append]
        cases hc : l.mapM ref with
        | none =>
          rw [hc] at ih
          obtain ⟨e, h1, h2⟩ := ih
          rw [h1]
          exact ⟨e, rfl, h2⟩
        | some c =>
          rw [hc] at ih
          simp only [Agrees] at ih
          rw [ih]
          rfl

/-! ### Structs: from the loop to the specification -/

/-- Reference step of a struct's decoder on trees. -/
def Fields.stepTree : (fs : Fields) → fs.Slots → Nat × Tree → Option fs.Slots
  | .nil, st, _ => some st
  | .cons i _ t rest, (o, os), p =>
    if p.1 = i then (Ty.read t p.2).map (fun v => (getOrInsert o v, os))
    else (Fields.stepTree rest os p).map (fun os => (o, os))

theorem Fields.stepTree_unknown : (fs : Fields) → (st : fs.Slots) → (p : Nat × Tree) →
    p.1 ∉ fs.indices → fs.stepTree st p = some st
  | .nil, _, _, _ => rfl
  | .cons i r t rest, (o, os), p, h => by
    simp only [Fields.indices, List.mem_cons, not_or] at h
    simp only [Fields.stepTree, if_neg h.1, Fields.stepTree_unknown rest os p h.2]
    rfl

theorem foldlM_pair {α β : Type} (i : Nat) (rd : Tree → Option α) (stepR : β → Nat × Tree → Option β)
    (hu : ∀ os p, p.1 = i → stepR os p = some os) (l : List (Nat × Tree)) (o : Option α) (os : β) :
    l.foldlM (fun (st : Option α × β) p =>
        if p.1 = i then (rd p.2).map (fun v => (getOrInsert st.1 v, st.2))
        else (stepR st.2 p).map (fun os => (st.1, os))) (o, os) =
      match (l.filter (fun p => p.1 == i)).mapM (fun p => rd p.2), l.foldlM stepR os with
      | some vs, some os => some (match o with | none => vs.head? | some v => some v, os)
      | _, _ => none := by
  induction l generalizing o os with
  | nil => cases o <;> rfl
  | cons p l ih =>
    rw [List.foldlM_cons, List.foldlM_cons]
    by_cases h : p.1 = i
    · rw [hu os p h]
      have hf : (p :: l).filter (fun p => p.1 == i) = p :: l.filter (fun p => p.1 == i) := by
        simp [h]
      rw [hf, List.mapM_cons]
      simp only [if_pos h]
      cases hr : rd p.2 with
      | none => rfl
      | some v =>
        simp only [Option.map_some, Option.bind_eq_bind, Option.bind_some]
        rw [ih]
        cases (l.filter (fun p => p.1 == i)).mapM (fun p => rd p.2) <;>
          cases l.foldlM stepR os <;> cases o <;> rfl
    · have hf : (p :: l).filter (fun p => p.1 == i) = l.filter (fun p => p.1 == i) := by
        simp [h]
      rw [hf]
      simp only [if_neg h]
      cases hr : stepR os p with
      | none =>
        simp only [Option.map_none, Option.bind_eq_bind, Option.bind_none]
        cases (l.filter (fun p => p.1 == i)).mapM (fun p => rd p.2) <;> rfl
      | some os' =>
        simp only [Option.map_some, Option.bind_eq_bind, Option.bind_some]
        rw [ih]

theorem Fields.foldlM_finish : (fs : Fields) → fs.indices.Nodup → (l : List (Nat × Tree)) →
    (l.foldlM fs.stepTree fs.emptySlots).bind fs.finish = fs.readStruct l
  | .nil, _, l => by
    have : ∀ (l : List (Nat × Tree)) (st : Fields.nil.Slots),
        l.foldlM Fields.nil.stepTree st = some st := by
      intro l
      induction l with
      | nil => intro st; rfl
      | cons p l ih => intro st; rw [List.foldlM_cons]; exact ih st
    rw [this]; rfl
  | .cons i r t rest, h, l => by
    simp only [Fields.indices, List.nodup_cons] at h
    have ih := Fields.foldlM_finish rest h.2 l
    simp only [Fields.readStruct]
    have hp := foldlM_pair i t.read rest.stepTree
      (fun os p hp => Fields.stepTree_unknown rest os p (hp ▸ h.1)) l none rest.emptySlots
    have hp' : l.foldlM (Fields.stepTree (.cons i r t rest)) (Fields.emptySlots (.cons i r t rest)) =
      _ := hp
    rw [hp', ← ih]
    cases (l.filter (fun p => p.1 == i)).mapM (fun p => Ty.read t p.2) with
    | none => rfl
    | some vs =>
      cases l.foldlM rest.stepTree rest.emptySlots with
      | none =>
        simp only [Option.bind_none]
        cases Slot.ofOption (r.mayOmit .inn) vs.head? <;> rfl
      | some os => rfl

/-! ### Main theorem -/

theorem deserBytes_ok (lim : Nat) (b : Bytes) (h : b.length ≤ lim) :
    (if b.length ≤ lim then (.ok (b, []) : Res Bytes) else .error .panic) = .ok (b, []) :=
  if_pos h

theorem deserString_ok (lim : Nat) (u : Utf8) (h : u.bytes.length ≤ lim) :
    (if u.bytes.length ≤ lim then
      if h : validUtf8 u.bytes = true then (.ok (⟨u.bytes, h⟩, []) : Res Utf8) else .error .invalid
    else .error .panic) = .ok (u, []) := by
  rw [if_pos h, dif_pos u.valid]

theorem deserScalars_ok (lim : Nat) (isField : Bool) (s : Scalar) (vs : List s.Val)
    (h : 8 * (vs.flatMap (scalarElem s)).length ≤ lim) :
    (CTy.scalars s).deser lim isField (vs.flatMap (scalarElem s)).length
      (vs.flatMap (scalarElem s)) = .ok (vs, []) := by
  have h1 : ¬ (s = .f64 ∧ ¬ 8 * (vs.flatMap (scalarElem s)).length ≤ lim) := fun hh => hh.2 h
  rw [CTy.deser]
  exact (if_neg h1).trans (by rw [scalarLoop_wire _ vs _ (by omega)])

mutual
/-- The decoder applied to the layout of a fitting content gives what the specification says. -/
theorem CTy.deser_wire (lim : Nat) (hlim : lim < 2 ^ 64) (isField : Bool) : (c : CTy) → c.WF →
    (t : Tree) → c.Fits t → 8 * (t.wire isField).length ≤ lim →
    Agrees (c.deser lim isField (t.wire isField).length (t.wire isField))
      ((c.read t).map (fun m => (m, [])))
  | .bytes, _, .bytes b, _, h => by
    have h' : (List.length (α := UInt8) b) ≤ lim := by
      simp only [Tree.wire] at h; omega
    exact deserBytes_ok lim b h'
  | .string, _, .string u, _, h => by
    have h' : u.bytes.length ≤ lim := by
      simp only [Tree.wire] at h; omega
    exact deserString_ok lim u h'
  | .units, _, .units n, _, h => by
    simp only [Tree.wire, CTy.deser, CTy.read]
    cases isField with
    | true =>
      simp only [if_true]
      rw [readU64Field_intField n.toNat_lt, UInt64.ofNat_toNat]
      rfl
    | false =>
      simp only [Bool.false_eq_true, if_false]
      have := deserializeVarint_varintBytes n.toNat_lt []
      rw [List.append_nil, UInt64.ofNat_toNat] at this
      simp only [readU64Elem, this]
      rfl
  | .scalars s, _, .scalars s' vs, hf, h => by
    simp only [CTy.Fits] at hf
    subst hf
    simp only [Tree.wire] at h
    simp only [CTy.read, dif_pos]
    exact deserScalars_ok lim isField s' vs h
  | .array c, hw, .array l, hf, h => by
    simp only [CTy.WF] at hw
    simp only [CTy.Fits] at hf
    simp only [Tree.wire] at h
    simp only [Tree.wire, CTy.deser, CTy.read]
    have := arrayLoop_wire (CTy.deser lim false c) c.read l (fun t ht =>
      CTy.deser_wire lim hlim false c hw t (hf t ht) (by
        have := length_le_flatMap (fun t => varintBytes (t.wire false).length ++ t.wire false) ht
        rw [← wireElems_eq, List.length_append] at this
        omega)) _ (Nat.lt_succ_self _) (by omega)
    cases hr : l.mapM c.read with
    | none =>
      rw [hr] at this
      obtain ⟨e, h1, h2⟩ := this
      rw [h1]
      exact ⟨e, rfl, h2⟩
    | some m =>
      rw [hr] at this
      simp only [Agrees] at this
      rw [this]
      rfl
  | .struct fs, hw, .fields l, hf, h => by
    simp only [CTy.WF] at hw
    simp only [CTy.Fits] at hf
    simp only [Tree.wire] at h
    simp only [Tree.wire, CTy.deser, CTy.read]
    rw [← Fields.foldlM_finish fs hw.1 l]
    have := structLoop_wire (Fields.step lim fs) fs.stepTree l (fun p hp => (hf p hp).1)
      (fun p hp st => Fields.step_wire lim hlim fs hw.2 p.1 p.2 (hf p hp).2
        (by
          have := length_le_flatMap
            (fun p : Nat × Tree => Spec.field p.1 p.2.isInteger (p.2.wire true)) hp
          rw [← wireFields_eq] at this
          have := field_pos p.1 p.2.isInteger (p.2.wire true)
          omega) st)
      ((Tree.wireFields l).length + 1) fs.emptySlots (by omega) (by omega)
    cases hr : l.foldlM fs.stepTree fs.emptySlots with
    | none =>
      rw [hr] at this
      obtain ⟨e, h1, h2⟩ := this
      rw [h1]
      exact ⟨e, rfl, h2⟩
    | some st =>
      rw [hr] at this
      simp only [Agrees] at this
      rw [this]
      simp only [Option.bind_some]
      cases fs.finish st with
      | none => exact ⟨.invalid, rfl, .inr rfl⟩
      | some m => rfl
  | .choice fs, hw, .fields l, hf, h => by
    simp only [CTy.WF] at hw
    simp only [CTy.Fits] at hf
    simp only [Tree.wire] at h
    simp only [Tree.wire, CTy.deser, CTy.read]
    have := choiceLoop_wire (Fields.select lim fs) fs.readVariant l
      (fun p hp => (hf p hp).1)
      (fun p hp => Fields.select_wire lim hlim fs hw.2 p.1 p.2 (hf p hp).2
        (by
          have := length_le_flatMap
            (fun p : Nat × Tree => Spec.field p.1 p.2.isInteger (p.2.wire true)) hp
          rw [← wireFields_eq] at this
          have := field_pos p.1 p.2.isInteger (p.2.wire true)
          omega))
      _ (Nat.lt_succ_self _) (by omega)
    cases hr : readChain fs.readVariant l with
    | none =>
      rw [hr] at this
      obtain ⟨e, h1, h2⟩ := this
      rw [h1]
      exact ⟨e, rfl, h2⟩
    | some m =>
      rw [hr] at this
      simp only [Agrees] at this
      rw [this]
      rfl

theorem Ty.deser_wire (lim : Nat) (hlim : lim < 2 ^ 64) : (ty : Ty) → ty.WF →
    (t : Tree) → ty.Fits t → 8 * (t.wire true).length ≤ lim →
    Agrees (ty.deser lim (t.wire true).length (t.wire true))
      ((ty.read t).map (fun m => (m, [])))
  | .unit, _, .unit, _, _ => rfl
  | .scalar s, _, .scalar s' v, hf, _ => by
    simp only [Ty.Fits] at hf
    subst hf
    simp only [Tree.wire, if_true, Ty.deser, Ty.read, Scalar.cast, dif_pos]
    exact readScalarField_wire s' v
  | .comp c, hw, t, hf, h => by
    simp only [Ty.WF] at hw
    simp only [Ty.Fits] at hf
    simp only [Ty.deser, Ty.read]
    exact CTy.deser_wire lim hlim true c hw t hf h

theorem Fields.step_wire (lim : Nat) (hlim : lim < 2 ^ 64) : (fs : Fields) → fs.WF →
    (j : Nat) → (t : Tree) → fs.FitsAt j t → 8 * (t.wire true).length ≤ lim → (st : fs.Slots) →
    StepAgrees (fs.step lim j (t.wire true).length (t.wire true) st) st (fs.stepTree st (j, t))
  | .nil, _, _, _, _, _, _ => .inl ⟨rfl, rfl⟩
  | .cons i r ty rest, hw, j, t, hf, h, (o, os) => by
    simp only [Fields.WF] at hw
    simp only [Fields.FitsAt] at hf
    simp only [Fields.step, Fields.stepTree]
    by_cases hij : j = i
    · rw [if_pos hij, if_pos hij]
      have := Ty.deser_wire lim hlim ty hw.2.1 t (hf.1 hij) h
      cases hr : ty.read t with
      | none =>
        rw [hr] at this
        obtain ⟨e, h1, h2⟩ := this
        rw [h1]
        exact .inr (.inr ⟨e, rfl, h2, rfl⟩)
      | some v =>
        rw [hr] at this
        simp only [Option.map_some, Agrees] at this
        rw [this]
        exact .inr (.inl ⟨_, rfl, rfl⟩)
    · rw [if_neg hij, if_neg hij]
      rcases Fields.step_wire lim hlim rest hw.2.2 j t hf.2 h os with
        ⟨h1, h2⟩ | ⟨st', h1, h2⟩ | ⟨e, h1, h2, h3⟩
      · rw [h1, h2]; exact .inl ⟨rfl, rfl⟩
      · rw [h1, h2]; exact .inr (.inl ⟨_, rfl, rfl⟩)
      · rw [h1, h3]; exact .inr (.inr ⟨e, rfl, h2, rfl⟩)

theorem Fields.select_wire (lim : Nat) (hlim : lim < 2 ^ 64) : (fs : Fields) → fs.WF →
    (j : Nat) → (t : Tree) → fs.FitsAt j t → 8 * (t.wire true).length ≤ lim →
    SelectAgrees (fs.select lim j (t.wire true).length (t.wire true)) (fs.readVariant j t)
  | .nil, _, _, _, _, _ => rfl
  | .cons i r ty rest, hw, j, t, hf, h => by
    simp only [Fields.WF] at hw
    simp only [Fields.FitsAt] at hf
    simp only [Fields.select, Fields.readVariant]
    by_cases hij : j = i
    · rw [if_pos hij, if_pos hij]
      have := Ty.deser_wire lim hlim ty hw.2.1 t (hf.1 hij) h
      cases hr : ty.read t with
      | none =>
        rw [hr] at this
        obtain ⟨e, h1, h2⟩ := this
        rw [h1]
        exact ⟨e, rfl, h2⟩
      | some v =>
        rw [hr] at this
        simp only [Option.map_some, Agrees] at this
        rw [this]
        simp only
        by_cases hfb : r.hasFallback .inn = true
        · rw [dif_pos hfb, dif_pos hfb]; rfl
        · rw [dif_neg hfb, dif_neg hfb]; rfl
    · rw [if_neg hij, if_neg hij]
      have := Fields.select_wire lim hlim rest hw.2.2 j t hf.2 h
      cases hr : rest.readVariant j t with
      | none =>
        rw [hr] at this
        simp only [SelectAgrees] at this
        rw [this]; rfl
      | some o =>
        rw [hr] at this
        cases o with
        | none =>
          obtain ⟨e, h1, h2⟩ := this
          rw [h1]
          exact ⟨e, rfl, h2⟩
        | some ab =>
          simp only [SelectAgrees] at this
          rw [this]
          cases ab <;> rfl
end

/-- `deserialize` applied to the layout of a fitting content gives what the specification says. -/
theorem deserialize_wire (lim : Nat) (hlim : lim < 2 ^ 64) (c : CTy) (hw : c.WF) (t : Tree)
    (hf : c.Fits t) (h : 8 * (t.wire false).length ≤ lim) :
    Agrees (deserialize lim c (t.wire false)) (c.read t) := by
  have := CTy.deser_wire lim hlim false c hw t hf h
  unfold deserialize
  cases hr : c.read t with
  | none =>
    rw [hr] at this
    obtain ⟨e, h1, h2⟩ := this
    rw [h1]
    exact ⟨e, rfl, h2⟩
  | some m =>
    rw [hr] at this
    simp only [Option.map_some, Agrees] at this
    rw [this]
    rfl

end Typical

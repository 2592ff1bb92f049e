import Verif.TsGen.Loops
import Verif.TsLemmas

/-!
# Helper: the generated `atlas` functions compute the atlases of the model
-/

namespace Typical.TsGen

open Gen (NCTy NTy NFields DeclName FieldName Ev)

/-- Names of types which are mentioned in a type are resolved correctly. -/
def Resolves (T : CharTable) (S : Schemas) (P : Prog) (path : List Str) (s : Schema) (ns ns' : Namespace) (tv : TypeVariant) : Prop :=
  ∀ i n k, tv.Mentions i n → s.RefersTo ns i n k → ∀ ns₂ s₂ d₂, S.Declares k ns₂ s₂ d₂ →
    tsResolve P.exports path (customPath T s ns' i n) = some (declPath T ns₂.components d₂)

/-- The atlas of a payload. -/
def atlasOf (isField : Bool) : (t : NTy) → t.erase.Msg .out → Ts.TAtlas t.erase
  | .unit, _ => (0 : Nat)
  | .scalar s, x => if isField then Ts.scalarFieldSize s x else Ts.scalarElemSize s x
  | .comp c, m => Ts.cAtlas isField c.erase m

theorem atlasOf_true (t : NTy) (m : t.erase.Msg .out) : atlasOf true t m = Ts.tAtlas t.erase m := by
  cases t <;> rfl

theorem NamedType.unit_iff {T : CharTable} {S : Schemas} {ns : Namespace} {s : Schema} {tv : TypeVariant} {t : NTy}
    (h : NamedType T S ns s tv t) : tv = .unit ↔ t = .unit := by
  cases h <;> simp

theorem NamedType.integerEncoded {T : CharTable} {S : Schemas} {ns : Namespace} {s : Schema} {tv : TypeVariant} {t : NTy}
    (h : NamedType T S ns s tv t) : TsGen.integerEncoded tv = t.erase.integerEncoded := by
  cases h <;> rfl

theorem NamedType.sized_comp {T : CharTable} {S : Schemas} {ns : Namespace} {s : Schema} {tv : TypeVariant} {c : NCTy}
    (h : NamedType T S ns s tv (.comp c)) : sized tv = true := by
  cases h <;> rfl

theorem NamedType.sized_scalar {T : CharTable} {S : Schemas} {ns : Namespace} {s : Schema} {tv : TypeVariant} {c : Scalar}
    (h : NamedType T S ns s tv (.scalar c)) : sized tv = false := by
  cases h <;> rfl

theorem atlasCalculation_declared (T : CharTable) (s : Schema) (ns : Namespace) (isField : Bool) (tv : TypeVariant) :
    (atlasCalculation T s ns isField tv).declared = [] := by
  cases tv <;> unfold atlasCalculation <;> repeat (first | rfl | split)
  all_goals (unfold atlasU64; split <;> rfl)

theorem atlasInteger_declared (x : TVar) : (atlasInteger x).declared = [] := rfl
theorem atlasU64_declared (isField : Bool) : (atlasU64 isField).declared = [] := by cases isField <;> rfl

/-- The value of an integer with a sign, zigzag-encoded. -/
theorem zigzag_nat (x : Int64) : Ts.zigzagEncode (Int64.toInt x) = (((Ts.zigzagEncode (Int64.toInt x)).toNat : Nat) : Int) := by
  rw [Int.toNat_of_nonneg]
  unfold Ts.zigzagEncode
  simp only
  split <;> omega

section
variable {P : Prog} {path : List Str} (hc : P.Clear path) {n : Nat} (hn : 16 ≤ n) {env : Env} (h : List Obj) (sc : Nat → UInt8)
include hc hn

theorem exec_atlasInteger {x : TVar} {z : Nat} (hx : lookup x env = some (.big z)) (ha : assignable .payloadAtlas env = true) :
    (atlasInteger x).exec (ctx P path n) ⟨env, h, sc⟩ =
      some (.val .undef, ⟨update .payloadAtlas (natV (Ts.u64FieldSize z)) env, h, sc⟩) := by
  refine (run_done _ _).symm.trans ?_
  unfold Ts.u64FieldSize
  split
  · next h0 => subst h0; tsrun [atlasInteger, hx, ha]
  split
  · next h0 h1 => 
    tsrun [atlasInteger, hx, ha, h0, h1, hc.runtime, run_eq (callFn_varintSizeFromValue P hn z _)]
  · next h0 h1 => tsrun [atlasInteger, hx, ha, h0, h1]

theorem exec_atlasU64 {z : Nat} (isField : Bool) (hx : lookup .payload env = some (.big z)) (ha : assignable .payloadAtlas env = true) :
    (atlasU64 isField).exec (ctx P path n) ⟨env, h, sc⟩ =
      some (.val .undef, ⟨update .payloadAtlas (natV (if isField then Ts.u64FieldSize z else Ts.varintSizeFromValue z)) env, h, sc⟩) := by
  unfold atlasU64
  cases isField with
  | true => exact exec_atlasInteger hc hn h sc hx ha
  | false =>
    refine (run_done _ _).symm.trans ?_
    tsrun [hx, ha, hc.runtime, run_eq (callFn_varintSizeFromValue P hn z _)]

theorem exec_atlasScalar {T : CharTable} {S : Schemas} {ns ns' : Namespace} {s : Schema} {tv : TypeVariant} {c : Scalar}
    (ht : NamedType T S ns s tv (.scalar c)) (isField : Bool) (x : c.Val)
    (hx : lookup .payload env = some (encScalar c x)) (ha : assignable .payloadAtlas env = true) :
    (atlasCalculation T s ns' isField tv).exec (ctx P path n) ⟨env, h, sc⟩ =
      some (.val .undef, ⟨update .payloadAtlas (natV (if isField then Ts.scalarFieldSize c x else Ts.scalarElemSize c x)) env, h, sc⟩) := by
  cases ht with
  | bool =>
    refine (run_done _ _).symm.trans ?_
    unfold atlasCalculation
    change Bool at x
    change _ = some (Val.bool x) at hx
    cases isField <;> cases x <;> tsrun [hx, ha, Ts.scalarFieldSize, Ts.scalarElemSize] <;> rfl
  | f64 =>
    refine (run_done _ _).symm.trans ?_
    unfold atlasCalculation
    cases isField with
    | false => tsrun [ha]; rfl
    | true =>
      change UInt64 at x
      change _ = some (encF64 x) at hx
      by_cases h0 : x = 0
      · subst h0
        have : encF64 0 = .num (0 : Nat) := rfl
        rw [this] at hx
        tsrun [hx, ha, hc.root, Builtin.call, Ts.scalarFieldSize, Ts.f64FieldSize]
      · have : encF64 x = .f64 x := by unfold encF64; rw [if_neg h0]
        rw [this] at hx
        tsrun [hx, ha, hc.root, Builtin.call, Ts.scalarFieldSize, Ts.f64FieldSize, h0]
        rfl
  | s64 =>
    refine (run_done _ _).symm.trans ?_
    unfold atlasCalculation
    change _ = some (Val.big (Int64.toInt x)) at hx
    obtain ⟨z, hz⟩ : ∃ z : Nat, Ts.zigzagEncode (Int64.toInt x) = (z : Int) := ⟨_, zigzag_nat x⟩
    have hz' : (Ts.zigzagEncode (Int64.toInt x)).toNat = z := by rw [hz]; rfl
    cases isField with
    | false =>
      tsrun [hx, ha, hc.runtime, run_eq (callFn_zigzagEncode P hn _ _), hz, hz', run_eq (callFn_varintSizeFromValue P hn _ _), Ts.scalarElemSize]
    | true =>
      tsrun [hx, ha, hc.runtime, run_eq (callFn_zigzagEncode P hn _ _), hz, atlasInteger_declared]
      refine (run_eq (exec_atlasInteger hc hn h sc (x := .zigzag) (z := z) ?_ ?_) _).trans ?_
      · tsrun
      · tsrun [ha]
      · tsrun [Ts.scalarFieldSize, hz']
  | u64 =>
    unfold atlasCalculation
    exact (exec_atlasU64 hc hn h sc isField hx ha).trans (by cases isField <;> rfl)

end

/-! ### Properties of built-in objects -/

section
variable {env : Env} {h : List Obj} {sc : Nat → UInt8} {κ : Out → St → Option (Out × St)} {r base len : Nat}

theorem run_arr_length {l : List Val} (hr : h[r]? = some (.arr l)) : run (Val.prop "length".toList (.arr r)) ⟨env, h, sc⟩ κ =
    κ (.val (natV l.length)) ⟨env, h, sc⟩ := by
  simp only [Val.prop]; rw [if_pos trivial, run_withArr, hr]; rfl
theorem run_buf_byteLength {b : Bytes} (hr : h[r]? = some (.buf b)) : run (Val.prop "byteLength".toList (.buf r)) ⟨env, h, sc⟩ κ =
    κ (.val (natV b.length)) ⟨env, h, sc⟩ := by
  simp only [Val.prop]; rw [if_pos trivial, run_withBuf, hr]; rfl
@[ts_run] theorem run_view_byteLength (s : St) : run (Val.prop "byteLength".toList (.view r base len)) s κ = κ (.val (natV len)) s := by
  simp only [Val.prop]; rw [if_pos trivial]; rfl
@[ts_run] theorem run_view_byteOffset (s : St) : run (Val.prop "byteOffset".toList (.view r base len)) s κ = κ (.val (natV base)) s := by
  simp only [Val.prop]; rw [if_neg (by decide), if_pos trivial]; rfl
@[ts_run] theorem run_view_buffer (s : St) : run (Val.prop "buffer".toList (.view r base len)) s κ = κ (.val (.buf r)) s := by
  simp only [Val.prop]; rw [if_neg (by decide), if_neg (by decide), if_pos trivial]; rfl
@[ts_run] theorem run_typed_byteLength (s : St) : run (Val.prop "byteLength".toList (.typed r base len)) s κ = κ (.val (natV len)) s := by
  simp only [Val.prop]; rw [if_pos trivial]; rfl
@[ts_run] theorem run_typed_byteOffset (s : St) : run (Val.prop "byteOffset".toList (.typed r base len)) s κ = κ (.val (natV base)) s := by
  simp only [Val.prop]; rw [if_neg (by decide), if_pos trivial]; rfl
@[ts_run] theorem run_typed_buffer (s : St) : run (Val.prop "buffer".toList (.typed r base len)) s κ = κ (.val (.buf r)) s := by
  simp only [Val.prop]; rw [if_neg (by decide), if_neg (by decide), if_pos trivial]; rfl
theorem run_member {name : Str} {l : List (Str × Val)} {w : Val} (hm : member name l = some w) (s : St) :
    run (Val.prop name (.obj l)) s κ = κ (.val w) s := by
  unfold Val.prop; simp only [hm]; rfl
theorem run_arr_index {i : Nat} {l : List Val} {w : Val} (hr : h[r]? = some (.arr l)) (hi : l[i]? = some w) :
    run (Val.index (.arr r) (natV i)) ⟨env, h, sc⟩ κ = κ (.val w) ⟨env, h, sc⟩ := by
  unfold Val.index; rw [run_withArr, hr, arrK_some, run_ite, if_pos (by simp)]
  rw [Int.toNat_natCast, hi]; rfl
end

/-- Elements of related lists. -/
theorem forall₂_get {α β : Type} {R : α → β → Prop} : {m : List α} → {l : List β} → List.Forall₂ R m l → {i : Nat} → i < m.length →
    ∃ a b, m[i]? = some a ∧ l[i]? = some b ∧ R a b ∧ m.take (i + 1) = m.take i ++ [a]
  | _, _, .cons (a := a) (b := b) h1 h2, 0, _ => ⟨a, b, rfl, rfl, h1, by simp⟩
  | _, _, .cons h1 h2, i + 1, hi => by
    obtain ⟨a, b, e1, e2, e3, e4⟩ := forall₂_get h2 (i := i) (by simpa using hi)
    exact ⟨a, b, e1, e2, e3, by rw [List.take_succ_cons, e4]; rfl⟩

theorem forall₂_snoc {α β : Type} {R : α → β → Prop} {m : List α} {l : List β} (h : List.Forall₂ R m l) {a : α} {b : β} (h' : R a b) :
    List.Forall₂ R (m ++ [a]) (l ++ [b]) := by
  induction h with
  | nil => exact .cons h' .nil
  | cons h1 _ ih => exact .cons h1 ih

/-! ### Atlas lookup -/

theorem run_atlasLookup {T : CharTable} {S : Schemas} {ns : Namespace} {s : Schema} {tv : TypeVariant} {t : NTy} (ht : NamedType T S ns s tv t)
    {H : Part} {a : Ts.TAtlas t.erase} {va : Val} (hva : tAtl H t a va) {env : Env} (hl : lookup .payloadAtlas env = some va) (c : Ctx)
    (h : List Obj) (sc : Nat → UInt8) (κ : Out → St → Option (Out × St)) :
    run (Ex.eval c (atlasLookup tv)) ⟨env, h, sc⟩ κ = κ (.val (natV (Ts.tSize t.erase a))) ⟨env, h, sc⟩ := by
  have hsz : ∀ {l : List (Str × Val)} {k : Nat}, va = .obj l → member "$size".toList l = some (natV k) → Ts.tSize t.erase a = k →
      run (Ex.eval c (.prop (v .payloadAtlas) "$size".toList)) ⟨env, h, sc⟩ κ = κ (.val (natV (Ts.tSize t.erase a))) ⟨env, h, sc⟩ := by
    intro l k e1 e2 e3
    subst e1
    tsrun [hl, run_member e2, e3]
  cases ht with
  | bool => cases hva; tsrun [atlasLookup, hl]; rfl
  | f64 => cases hva; tsrun [atlasLookup, hl]; rfl
  | s64 => cases hva; tsrun [atlasLookup, hl]; rfl
  | u64 => cases hva; tsrun [atlasLookup, hl]; rfl
  | unit => cases hva; tsrun [atlasLookup, hl]; rfl
  | bytes => cases hva; tsrun [atlasLookup, hl]; rfl
  | string =>
    obtain ⟨r, rfl, h2⟩ := hva
    tsrun [atlasLookup, hl, Ex.byteLength]; rfl
  | units => cases hva; simp only [atlasLookup]; rw [if_neg (by simp [sized])]; tsrun [hl]; rfl
  | scalars hi => cases hva; simp only [atlasLookup]; rw [if_neg (by rw [hi.sized_scalar]; nofun)]; tsrun [hl]; rfl
  | array hi =>
    obtain ⟨r, l, rfl, h2, h3⟩ := hva
    simp only [atlasLookup]
    rw [if_pos hi.sized_comp]
    exact hsz rfl rfl rfl
  | custom h1 h2 =>
    simp only [atlasLookup, Ex.size]
    rw [run_prop, run_paren, run_as, ← run_prop]
    cases h2 with
    | struct =>
      obtain ⟨l, rfl, e2, e3⟩ := hva
      exact hsz rfl e2 rfl
    | choice =>
      cases a with
      | last b =>
        obtain ⟨l, rfl, e2, e3⟩ := hva
        exact hsz rfl e2 rfl
      | more a b =>
        obtain ⟨l, w, rfl, e2, e3⟩ := hva
        exact hsz rfl e2 rfl

end Typical.TsGen

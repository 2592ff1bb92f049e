import Verif.Gen.TypeProof
import Verif.Spec.RustTyping

/-!
# Helper: generated expressions have the types which they should
-/

namespace Typical.Gen

/-- The type for a type expression, given the types for names. -/
def rt (look : Option Identifier → Identifier → NameSuffix → TypeId) (x : NameSuffix) : TypeVariant → RT
  | .array _ t => if x = .atlas then if sized t then .pair .usize (.vec (rt look x t)) else .usize else .vec (rt look x t)
  | .bool => if x = .atlas then .usize else .bool
  | .bytes => if x = .atlas then .usize else .vec .u8
  | .custom i n => .named (look i n x)
  | .f64 => if x = .atlas then .usize else .f64
  | .s64 => if x = .atlas then .usize else .i64
  | .string => if x = .atlas then .usize else .string
  | .u64 => if x = .atlas then .usize else .u64
  | .unit => if x = .atlas then .usize else .unit

/-- Where code is checked. -/
structure Good (T : CharTable) (S : Schemas) (mod : List Str) (E : TyEnv) : Prop where
  items : E.items = items T S
  impls : E.impls = impls T S
  mod : E.mod = mod

/-- The names in a type expression are resolved. -/
def Looks (T : CharTable) (S : Schemas) (s : Schema) (ns' : Namespace) (mod : List Str) (look : Option Identifier → Identifier → NameSuffix → TypeId)
    (tv : TypeVariant) : Prop :=
  ∀ i n, tv.Mentions i n → (∀ x, (TypeEx.path (typePath T s ns' i n x)).resolve mod = some (.named (look i n x))) ∧
    Gen.impls T S (look i n .out) (look i n .in_) (look i n .atlas)

section
variable {T : CharTable} {S : Schemas} {s : Schema} {ns' : Namespace} {mod : List Str} {look : Option Identifier → Identifier → NameSuffix → TypeId}

theorem Looks.elem {r : SourceRange} {t : TypeVariant} (h : Looks T S s ns' mod look (.array r t)) : Looks T S s ns' mod look t :=
  fun i n hm => h i n (.array hm)

theorem Good.closure {E : TyEnv} (h : Good T S mod E) : Good T S mod E.closure := ⟨h.1, h.2, h.3⟩
theorem Good.inLoop {E : TyEnv} (h : Good T S mod E) (b : Bool) : Good T S mod (E.inLoop b) := ⟨h.1, h.2, h.3⟩

theorem resolve_rt (x : NameSuffix) : (tv : TypeVariant) → Looks T S s ns' mod look tv → (typeOf T s ns' x tv).resolve mod = some (rt look x tv)
  | .array _ t, h => by
    have ih := resolve_rt x t h.elem
    unfold typeOf rt
    by_cases hx : x = .atlas
    · rw [if_pos hx, if_pos hx]
      by_cases ht : sized t = true
      · rw [if_pos ht, if_pos ht]
        simp only [TypeEx.resolve, ih, Option.map_some]
      · rw [if_neg ht, if_neg ht]
        rfl
    · rw [if_neg hx, if_neg hx]
      simp only [TypeEx.resolve, ih, Option.map_some]
  | .custom i n, h => (h i n (.custom i n)).1 x
  | .bool, _ => by unfold typeOf rt; split <;> rfl
  | .bytes, _ => by unfold typeOf rt; split <;> rfl
  | .f64, _ => by unfold typeOf rt; split <;> rfl
  | .s64, _ => by unfold typeOf rt; split <;> rfl
  | .string, _ => by unfold typeOf rt; split <;> rfl
  | .u64, _ => by unfold typeOf rt; split <;> rfl
  | .unit, _ => by unfold typeOf rt; split <;> rfl

/-! ### Variables -/

theorem set_self (Γ : Vars) (w : Var) (τ : RT) (m : Bool) : (Γ.set w τ m) w = some (τ, m) := if_pos rfl

theorem set_other {Γ : Vars} {w u : Var} {τ : RT} {m : Bool} (h : u ≠ w) : (Γ.set w τ m) u = Γ u := if_neg h

/-- Look up a variable. -/
macro "look" : tactic => `(tactic| first
  | assumption
  | exact set_self _ _ _ _
  | (rw [set_other (by first | assumption | nofun)]; first
    | assumption
    | exact set_self _ _ _ _
    | (rw [set_other (by first | assumption | nofun)]; first
      | assumption
      | exact set_self _ _ _ _
      | (rw [set_other (by first | assumption | nofun)]; first
        | assumption
        | exact set_self _ _ _ _
        | (rw [set_other (by first | assumption | nofun)]; first
          | assumption
          | exact set_self _ _ _ _)))))

variable {E : TyEnv} {Γ : Vars} {supers : Nat}

/-- A variable is used. -/
theorem use_ty {x : Var} {τ : RT} {m : Bool} (h : Γ x = some (τ, m)) : HasTy E Γ (v x) τ .value := .move (.var h)

/-- A variable is dereferenced and copied. -/
theorem copied_ty {x : Var} {τ : RT} {m : Bool} (hc : IsCopy τ) (h : Γ x = some (.ref τ, m)) : HasTy E Γ (.deref (v x)) τ .value :=
  .copy hc (.deref (.var h))

/-- A parameter. -/
theorem one_param {e : Ex} {es : Args} {τ : RT} {ps : List Param} (h : HasTy E Γ e τ .value) (h' : HasParams E Γ es ps) :
    HasParams E Γ (.cons e es) (.type τ :: ps) := .type h .refl h'

/-! ### Conversion -/

theorem rt_same (look : Option Identifier → Identifier → NameSuffix → TypeId) : {tv : TypeVariant} → innermostCustom tv = false → rt look .out tv = rt look .in_ tv
  | .array _ t, h => by
    have := rt_same look (tv := t) h
    simp only [rt, reduceCtorEq, if_false, this]
  | .custom _ _, h => nomatch h
  | .bool, _ | .bytes, _ | .f64, _ | .s64, _ | .string, _ | .u64, _ | .unit, _ => rfl

theorem into_basic (hE : Good T S mod E) {e : Ex} : {tv : TypeVariant} → Looks T S s ns' mod look tv → (∀ r t, tv ≠ .array r t) →
    HasTy E Γ e (rt look .out tv) .value → HasTy E Γ (e.m .into) (rt look .in_ tv) .value
  | .array r t, _, h, _ => absurd rfl (h r t)
  | .custom i n, hL, _, he => .into he (.impl (a := look i n .atlas) (by rw [hE.impls]; exact (hL i n (.custom i n)).2))
  | .bool, _, _, he | .bytes, _, _, he | .f64, _, _, he | .s64, _, _, he | .string, _, _, he | .u64, _, _, he | .unit, _, _, he => .into he .refl

theorem convertElement_ty : (t : TypeVariant) → Looks T S s ns' mod look t → ∀ {E : TyEnv} {Γ : Vars} {m : Bool}, Good T S mod E →
    Γ .x = some (rt look .out t, m) → HasTy E Γ (convertElement t) (rt look .in_ t) .value
  | .array _ t, hL, E, Γ, _, hE, hx => by
    rw [convertElement]
    simp only [rt, reduceCtorEq, if_false] at hx ⊢
    exact .mapVec (.intoIter (use_ty hx)) (convertElement_ty t hL.elem hE.closure (set_self _ _ _ _))
  | .custom i n, hL, _, _, _, hE, hx => into_basic hE hL nofun (use_ty hx)
  | .bool, hL, _, _, _, hE, hx => into_basic (tv := .bool) hE hL nofun (use_ty hx)
  | .bytes, hL, _, _, _, hE, hx => into_basic (tv := .bytes) hE hL nofun (use_ty hx)
  | .f64, hL, _, _, _, hE, hx => into_basic (tv := .f64) hE hL nofun (use_ty hx)
  | .s64, hL, _, _, _, hE, hx => into_basic (tv := .s64) hE hL nofun (use_ty hx)
  | .string, hL, _, _, _, hE, hx => into_basic (tv := .string) hE hL nofun (use_ty hx)
  | .u64, hL, _, _, _, hE, hx => into_basic (tv := .u64) hE hL nofun (use_ty hx)
  | .unit, hL, _, _, _, hE, hx => into_basic (tv := .unit) hE hL nofun (use_ty hx)

theorem intoInvocation_ty (hE : Good T S mod E) {e : Ex} {tv : TypeVariant} (hL : Looks T S s ns' mod look tv) (he : HasTy E Γ e (rt look .out tv) .value) :
    HasTy E Γ (intoInvocation e tv) (rt look .in_ tv) .value := by
  unfold intoInvocation
  split
  · rename_i t
    by_cases h : innermostCustom t = true
    · rw [if_pos h]
      simp only [rt, reduceCtorEq, if_false] at he ⊢
      exact .mapVec (.intoIter he) (convertElement_ty t hL.elem hE.closure (set_self _ _ _ _))
    · rw [if_neg h]
      refine .into he ?_
      rw [rt_same look (by simpa [innermostCustom] using h)]
      exact .refl
  · rename_i h
    exact into_basic hE hL h he

/-! ### Atlases -/

theorem u64_patterns (n : Nat) (h : n < 2 ^ 64) : n = 0 ∨ (1 ≤ n ∧ n ≤ 567382630219903) ∨ (567382630219904 ≤ n ∧ n ≤ 18446744073709551615) := by omega

theorem varintSize_ty {e : Ex} (hs : supers = E.mod.length) (he : HasTy E Γ e .u64 .value) :
    HasTy E Γ (.runtime supers .varintSizeFromValue (args [e])) .usize .value :=
  .runtime (f := .varintSizeFromValue) hs (one_param he .nil)

theorem atlasU64_ty (hs : supers = E.mod.length) {f m : Bool} (hp : Γ .payload = some (.ref .u64, m)) : HasTy E Γ (atlasU64 supers f) .usize .value := by
  have hv : HasTy E Γ (.runtime supers .varintSizeFromValue (args [.deref (v .payload)])) .usize .value := varintSize_ty hs (copied_ty .u64 hp)
  unfold atlasU64
  refine .paren ?_
  cases f with
  | false => exact hv
  | true =>
    refine .matchInline (copied_ty .u64 hp) (.cons (.u64 (by decide)) (.brace (.lit (.usize (by decide)))) (.cons (.range (by decide) (by decide)) (.brace hv)
      (.cons (.range (by decide) (by decide)) (.brace (.lit (.usize (by decide)))) .nil))) (.u64 fun n h => ?_)
    rcases u64_patterns n h with h | h | h
    · exact ⟨_, .head _, h⟩
    · exact ⟨_, .tail _ (.head _), h⟩
    · exact ⟨_, .tail _ (.tail _ (.head _)), h⟩

theorem atlasLookup_ty (hE : Good T S mod E) {m : Bool} : {tv : TypeVariant} → Looks T S s ns' mod look tv →
    Γ .payloadAtlas = some (.ref (rt look .atlas tv), m) → HasTy E Γ (atlasLookup tv) .usize .value
  | .array _ t, _, h => by
    rw [atlasLookup]
    simp only [rt, if_true] at h
    by_cases ht : sized t = true
    · rw [if_pos ht] at h ⊢
      exact .copy .usize (.fst (.var h) (.ref .refl))
    · rw [if_neg ht] at h ⊢
      exact copied_ty .usize h
  | .custom i n, hL, h => .size (.var h) (.ref .refl) (o := look i n .out) (i := look i n .in_) (by rw [hE.impls]; exact (hL i n (.custom i n)).2)
  | .bool, _, h | .bytes, _, h | .f64, _, h | .s64, _, h | .string, _, h | .u64, _, h | .unit, _, h => copied_ty .usize h

theorem unsized_scalar {t : TypeVariant} (h : sized t ≠ true) (hu : t ≠ .unit) : t = .bool ∨ t = .f64 ∨ t = .s64 ∨ t = .u64 := by
  cases t <;> simp_all [sized]

theorem atlasCalculation_ty : (tv : TypeVariant) → Looks T S s ns' mod look tv → ∀ (f : Bool) {E : TyEnv} {Γ : Vars} {m : Bool}, Good T S mod E →
    supers = E.mod.length → Γ .payload = some (.ref (rt look .out tv), m) → HasTy E Γ (atlasCalculation supers f tv) (rt look .atlas tv) .value
  | .array _ t, hL, f, E, Γ, m, hE, hs, hp => by
    rw [atlasCalculation]
    simp only [rt, reduceCtorEq, if_false, if_true] at hp ⊢
    have ih := fun f E Γ m => atlasCalculation_ty t hL.elem f (E := E) (Γ := Γ) (m := m)
    by_cases ht : sized t = true
    · rw [if_pos ht, if_pos ht]
      refine .paren (.brace (.letIn (.mapVec (.iter (.var hp) (.ref .refl)) (ih false E.closure _ _ hE.closure hs (set_self _ _ _ _))) ?_))
      refine .pair (.fold (.iter (.var (set_self _ _ _ _)) .refl) nofun (.brace (.letIn (atlasLookup_ty hE.closure hL.elem (set_self _ _ _ _)) ?_)))
        (use_ty (set_self _ _ _ _))
      refine .bin .add (.bin .add (use_ty (m := false) ?_) (varintSize_ty hs (.asU64 (use_ty (set_self _ _ _ _))))) (use_ty (set_self _ _ _ _))
      look
    · rw [if_neg ht, if_neg ht]
      by_cases hu : t = .unit
      · rw [if_pos hu]
        exact .paren (.brace (.letIn (.ref (.paren (.asU64 (.lenVec (.var hp) (.ref .refl))))) (atlasU64_ty hs (set_self _ _ _ _))))
      · rw [if_neg hu]
        by_cases hf : t = .f64
        · rw [if_pos hf]
          exact .paren (.bin .mul (.lit (.usize (by decide))) (.lenVec (.var hp) (.ref .refl)))
        · rw [if_neg hf]
          have h1 := ih false E.closure ((Γ.set .x .usize false).set .payload (.ref (rt look .out t)) false) false hE.closure hs (set_self _ _ _ _)
          have h2 : rt look .atlas t = .usize := by
            rcases unsized_scalar ht hu with rfl | rfl | rfl | rfl <;> rfl
          rw [h2] at h1
          exact .paren (.fold (.iter (.var hp) (.ref .refl)) nofun (.bin .add (use_ty (by look)) h1))
  | .bool, _, f, _, _, _, _, _, hp => by
    rw [atlasCalculation]
    refine .paren ?_
    cases f with
    | true => exact .usizeFrom (copied_ty .bool hp)
    | false => exact .lit (.usize (by decide))
  | .bytes, _, _, _, _, _, _, _, hp => .paren (.lenVec (.var hp) (.ref .refl))
  | .string, _, _, _, _, _, _, _, hp => .paren (.lenString (.var hp) (.ref .refl))
  | .custom i n, hL, _, _, _, _, hE, _, hp =>
    .paren (.atlas (.var hp) (.ref .refl) (i := look i n .in_) (by rw [hE.impls]; exact (hL i n (.custom i n)).2))
  | .f64, _, f, _, _, _, _, _, hp => by
    rw [atlasCalculation]
    refine .paren ?_
    cases f with
    | true => exact .ifInline (.bin .eq (.toBits (.var hp) (.ref .refl)) (.lit (.u64 (by decide)))) (.lit (.usize (by decide))) (.lit (.usize (by decide)))
    | false => exact .lit (.usize (by decide))
  | .s64, _, _, _, _, _, _, hs, hp => by
    rw [atlasCalculation]
    exact .paren (.brace (.letIn (.runtime (f := .zigzagEncode) hs (one_param (copied_ty .i64 hp) .nil)) (.letIn (.ref (.var (set_self _ _ _ _)))
      (atlasU64_ty hs (set_self _ _ _ _)))))
  | .u64, _, _, _, _, _, _, hs, hp => atlasU64_ty hs hp
  | .unit, _, _, _, _, _, _, _, _ => .paren (.lit (.usize (by decide)))

/-! ### Serialization -/

theorem writer_arg {m : Bool} (hw : Γ .writer = some (.refMut .sink, m)) {es : Args} {ps : List Param} (h : HasParams E Γ es ps) :
    HasParams E Γ (.cons (v .writer) es) (.writer :: ps) := .writer (use_ty hw) .sink h

theorem write_ty {e : Ex} {τ σ : RT} {m : Bool} (hw : Γ .writer = some (.refMut .sink, m)) (hr : E.ret = some (.result σ)) (he : HasTy E Γ e τ .value)
    (hc : Coerces τ (.ref .slice)) : HasTy E Γ (.try_ (.method (v .writer) .writeAll (args [e]))) .unit .value :=
  .try_ hr (.writeAll (.var hw) (.refMut nofun .refl) .sink (.type he hc .nil))

theorem serializeVarint_ty {e : Ex} {σ : RT} {m : Bool} (hs : supers = E.mod.length) (hw : Γ .writer = some (.refMut .sink, m)) (hr : E.ret = some (.result σ))
    (he : HasTy E Γ e .u64 .value) : HasTy E Γ (.try_ (.runtime supers .serializeVarint (args [e, v .writer]))) .unit .value :=
  .try_ hr (.runtime (f := .serializeVarint) hs (one_param he (writer_arg hw .nil)))

theorem u64Serialization_ty {f m m' : Bool} {σ : RT} (hs : supers = E.mod.length) (hw : Γ .writer = some (.refMut .sink, m)) (hr : E.ret = some (.result σ))
    (hv : Γ .varint = some (.u64, m')) : HasTy E Γ (u64Serialization supers f) .unit .value := by
  have h1 := serializeVarint_ty (E := E) hs hw hr (use_ty hv)
  unfold u64Serialization
  cases f with
  | false => exact .seq h1 nofun .done
  | true =>
    refine .matchLines (use_ty hv) (.cons (.u64 (by decide)) (.block .done) (.cons (.range (by decide) (by decide)) h1
      (.cons (.range (by decide) (by decide)) (write_ty hw hr (.ref (.toLeBytesU64 (.var hv) .refl)) (.array .refl)) .nil))) (.u64 fun n h => ?_)
    rcases u64_patterns n h with h | h | h
    · exact ⟨_, .head _, h⟩
    · exact ⟨_, .tail _ (.head _), h⟩
    · exact ⟨_, .tail _ (.tail _ (.head _)), h⟩

theorem varintBlock_ty {e : Ex} {f m : Bool} {σ τ : RT} {rest : Ex} (hs : supers = E.mod.length) (hw : Γ .writer = some (.refMut .sink, m))
    (hr : E.ret = some (.result σ)) (he : HasTy E Γ e .u64 .value) (hrest : HasTy E Γ rest τ .value) :
    HasTy E Γ (.seq (.block (let' .varint e (u64Serialization supers f))) rest) τ .value :=
  .seq (.block (.letIn he (u64Serialization_ty hs (by look) hr (set_self _ _ _ _)))) (fun _ => rfl) hrest

theorem serializationInvocation_ty : (tv : TypeVariant) → Looks T S s ns' mod look tv → ∀ (f : Bool) {E : TyEnv} {Γ : Vars} {m m' : Bool} {σ τ : RT} {rest : Ex},
    Good T S mod E → supers = E.mod.length → E.ret = some (.result σ) → Γ .writer = some (.refMut .sink, m) → Γ .payload = some (.ref (rt look .out tv), m') →
    (sized tv = true → ∃ m, Γ .payloadAtlas = some (.ref (rt look .atlas tv), m)) → HasTy E Γ rest τ .value →
    HasTy E Γ (serializationInvocation supers f rest tv) τ .value
  | .array _ t, hL, f, E, Γ, m, m', σ, τ, rest, hE, hs, hr, hw, hp, ha, hrest => by
    have ih := fun E Γ m m' => serializationInvocation_ty t hL.elem false (E := E) (Γ := Γ) (m := m) (m' := m') (rest := .done) (σ := σ) (τ := .unit)
    obtain ⟨ma, ha⟩ := ha rfl
    rw [serializationInvocation]
    simp only [rt, reduceCtorEq, if_false, if_true] at hp ha
    by_cases ht : sized t = true
    · rw [if_pos ht] at ha ⊢
      refine .seq (.forZip (.iter (.var hp) (.ref .refl)) (.iter (.snd (.var ha) (.ref .refl)) .refl) nofun ?_) (fun _ => rfl) hrest
      refine .seq (serializeVarint_ty hs (by look) hr (.asU64 (atlasLookup_ty (hE.inLoop true) hL.elem (set_self _ _ _ _)))) nofun ?_
      exact ih _ _ _ false (hE.inLoop true) hs hr (by look) (by look) (fun _ => ⟨_, set_self _ _ _ _⟩) .done
    · rw [if_neg ht] at ha ⊢
      by_cases hu : t = .unit
      · rw [if_pos hu]
        exact varintBlock_ty hs hw hr (.asU64 (.lenVec (.var hp) (.ref .refl))) hrest
      · rw [if_neg hu]
        exact .seq (.forIn (use_ty hp) (ih _ _ _ false (hE.inLoop true) hs hr (by look) (set_self _ _ _ _) (fun h => absurd h ht) .done)) (fun _ => rfl) hrest
  | .bool, _, _, _, _, _, _, _, _, _, _, hs, hr, hw, hp, _, hrest => varintBlock_ty hs hw hr (.u64From (copied_ty .bool hp)) hrest
  | .bytes, _, _, _, _, _, _, _, _, _, _, hs, hr, hw, hp, _, hrest => .seq (write_ty hw hr (use_ty hp) (.bytes .refl)) nofun hrest
  | .custom i n, hL, _, _, _, _, _, _, _, _, hE, hs, hr, hw, hp, ha, hrest => by
    obtain ⟨ma, ha⟩ := ha rfl
    exact .seq (.try_ hr (.serializeWithAtlas (.var hp) (.ref .refl) (i := look i n .in_) (a := look i n .atlas) (by rw [hE.impls]; exact (hL i n (.custom i n)).2)
      (writer_arg hw (one_param (use_ty ha) .nil)))) nofun hrest
  | .f64, _, f, _, _, _, _, _, _, _, _, hs, hr, hw, hp, _, hrest => by
    have h1 := write_ty hw hr (.ref (.toLeBytesF64 (.var hp) (.ref .refl))) (.array .refl)
    rw [serializationInvocation]
    cases f with
    | true => exact .seq (.ifThen (.bin .ne (.toBits (.var hp) (.ref .refl)) (.lit (.u64 (by decide)))) (.seq h1 nofun .done)) (fun _ => rfl) hrest
    | false => exact .seq h1 nofun hrest
  | .s64, _, _, _, _, _, _, _, _, _, _, hs, hr, hw, hp, _, hrest =>
    varintBlock_ty hs hw hr (.runtime (f := .zigzagEncode) hs (one_param (copied_ty .i64 hp) .nil)) hrest
  | .string, _, _, _, _, _, _, _, _, _, _, hs, hr, hw, hp, _, hrest => .seq (write_ty hw hr (.asBytes (.var hp) (.ref .refl)) .refl) nofun hrest
  | .u64, _, _, _, _, _, _, _, _, _, _, hs, hr, hw, hp, _, hrest => varintBlock_ty hs hw hr (copied_ty .u64 hp) hrest
  | .unit, _, _, _, _, _, _, _, _, _, _, _, _, _, _, _, hrest => hrest

/-! ### Deserialization -/

theorem reader_arg {x : Var} {ρ : RT} (h : Γ x = some (ρ, true)) (hρ : IsReader ρ) {es : Args} {ps : List Param} (hp : HasParams E Γ es ps) :
    HasParams E Γ (.cons (.refMut (v x)) es) (.reader :: ps) := .reader (.refMut (.var h)) hρ hp

theorem deserializeVarint_ty {ρ : RT} (hs : supers = E.mod.length) (h : Γ .subReader = some (ρ, true)) (hρ : IsReader ρ) :
    HasTy E Γ (.runtime supers .deserializeVarint (args [.refMut (v .subReader)])) (.result .u64) .value :=
  .runtime (f := .deserializeVarint) hs (reader_arg h hρ .nil)

theorem readExact_ty {b : Bool} {ρ σ : RT} (hr : E.ret = some (.result σ)) (h : Γ .subReader = some (ρ, true)) (hρ : IsReader ρ) (hb : Γ .buffer = some (.array, true)) :
    HasTy E Γ (.try_ (.read (.exact b) (.refMut (v .subReader)) .buffer)) .unit .value :=
  .try_ hr (.read hb .exact (reader_arg h hρ .nil))

theorem u64Deserialization_ty {f : Bool} {ρ σ τ : RT} {rest : Ex} (hs : supers = E.mod.length) (hr : E.ret = some (.result σ)) (h : Γ .subReader = some (ρ, true))
    (hρ : IsReader ρ) (hp : f = true → ∃ m, Γ .payloadSize = some (.usize, m)) (hrest : HasTy E (Γ.set .payload .u64 false) rest τ .value) :
    HasTy E Γ (u64Deserialization supers f rest) τ .value := by
  have h1 : HasTy E Γ (.try_ (.runtime supers .deserializeVarint (args [.refMut (v .subReader)]))) .u64 .value := .try_ hr (deserializeVarint_ty hs h hρ)
  unfold u64Deserialization
  refine .letIn ?_ hrest
  cases f with
  | false => exact h1
  | true =>
    obtain ⟨m, hp⟩ := hp rfl
    exact .matchLines (use_ty hp) (.cons (.usize (by decide)) (.lit (.u64 (by decide))) (.cons (.usize (by decide)) (.block (.letIn (.lit .zeros)
      (.seq (readExact_ty hr (by look) hρ (set_self _ _ _ _)) nofun (.u64FromLeBytes (use_ty (set_self _ _ _ _)))))) (.cons .wild h1 .nil)))
      (.wild (.tail _ (.tail _ (.head _))))

theorem breakAtEnd_ty {x m : Bool} {σ τ : RT} (hb : E.brk = true) (hr : E.ret = some (.result σ)) (he : Γ .err = some (.error, m)) :
    HasTy E Γ (breakAtEnd x) τ .value := by
  have h1 : HasTy E Γ (.seq (.return_ (.errOf .err)) .done) .never .value := .diverge (.return_ hr (.errOf he))
  unfold breakAtEnd
  refine .never (.block (.seq (.ifEof he (.never (.diverge (.break_ hb)))) (fun _ => rfl) ?_))
  cases x with
  | true => exact .blank h1
  | false => exact h1

theorem set_agrees {Γ : Vars} {τ : RT} {m : Bool} (w : Var) (h : w ≠ .payload) : (Γ.set .payload τ m) w = Γ w := set_other h

theorem deserializationInvocation_ty : (tv : TypeVariant) → Looks T S s ns' mod look tv → ∀ (f : Bool) {E : TyEnv} {Γ : Vars} {ρ σ τ : RT} {rest : Ex},
    Good T S mod E → supers = E.mod.length → E.ret = some (.result σ) → Γ .subReader = some (ρ, true) → IsReader ρ →
    (f = true ∨ sized tv = true → ∃ m, Γ .payloadSize = some (.usize, m)) →
    (∀ (el : Option RT) (Γ' : Vars) (m : Bool), Γ' .payload = some (rt look .in_ tv, m) → (∀ w, w ≠ .payload → w ≠ .buffer → Γ' w = Γ w) →
      HasTy { E with elem := el } Γ' rest τ .value) →
    HasTy E Γ (deserializationInvocation T supers s ns' f rest tv) τ .value
  | .array _ t, hL, f, E, Γ, ρ, σ, τ, rest, hE, hs, hr, h, hρ, hp, hrest => by
    have ih := fun E Γ ρ σ τ rest => deserializationInvocation_ty t hL.elem false (E := E) (Γ := Γ) (ρ := ρ) (σ := σ) (τ := τ) (rest := rest)
    obtain ⟨mp, hps⟩ := hp (.inr rfl)
    rw [deserializationInvocation]
    simp only [rt, reduceCtorEq, if_false] at hrest
    by_cases ht : sized t = true
    · rw [if_pos ht]
      refine .letIn (.lit (.newVec (t := rt look .in_ t))) (.seq (.loop (.letIn (τ := .usize)
        (.matchLines (deserializeVarint_ty hs (by look) hρ) (.cons .ok (.asUsize (use_ty (set_self _ _ _ _))) (.cons .err
          (breakAtEnd_ty rfl hr (set_self _ _ _ _)) .nil)) (.result (.head _) (.tail _ (.head _)))) ?_)) (fun _ => rfl)
        (hrest E.elem _ _ (set_self _ _ _ _) (fun w h1 _ => set_other h1)))
      refine .letIn (.take (.refMut (.var (τ := ρ) ?_)) (.refMut hρ) (.asU64 (use_ty (set_self _ _ _ _)))) ?_
      · look
      · refine .seq (.mutate (t := .vec (rt look .in_ t)) ?_ .push (.block (ih _ _ _ σ _ _ (hE.inLoop true) hs hr (set_self _ _ _ _) (.take (.refMut hρ)) ?_ ?_))) nofun .done
        · look
        · intro _
          exact ⟨false, by look⟩
        · intro el Γ' m h1 _
          exact use_ty h1
    · rw [if_neg ht]
      by_cases hu : t = .unit
      · subst hu
        rw [if_pos rfl]
        exact u64Deserialization_ty hs hr h hρ (fun e => hp (.inl e)) (.letIn (.units (.asUsize (use_ty (set_self _ _ _ _)))) (hrest E.elem _ _ (set_self _ _ _ _)
          (fun w h1 _ => by rw [set_other h1, set_other h1])))
      · rw [if_neg hu]
        have h1 : HasTy { E with ret := some (.result (rt look .in_ t)), brk := false, elem := none } (Vars.empty.set .subReader (.refMut .source) true)
            (deserializationInvocation T supers s ns' false (.std .ok (args [v .payload])) t) (.result (rt look .in_ t)) .value := by
          refine ih _ _ _ _ _ _ ⟨hE.1, hE.2, hE.3⟩ hs rfl (set_self _ _ _ _) (.refMut .source) (fun h => ?_) (fun el Γ' m h1 _ => .ok (use_ty h1))
          rcases h with h | h
          · cases h
          · exact absurd h ht
        have h2 : HasTy { E with elem := some (rt look .in_ t) } (Γ.set .payload (.vec (rt look .in_ t)) true) (Ex.seq (.loop (.seq (.mutate .payload .push
          (.matchLines (.callFn (.refMut (v .subReader)))
            (.cons (.ok .element) (v .element) (.cons (.err .err) (breakAtEnd false) .nil)))) .done)) rest) τ .value := by
          refine .seq (.loop (.seq (.mutate (set_self _ _ _ _) .push (.matchLines (.callFn rfl (reader_arg (ρ := ρ) ?_ hρ .nil)) (.cons .ok (use_ty (set_self _ _ _ _))
            (.cons .err (breakAtEnd_ty rfl hr (set_self _ _ _ _)) .nil)) (.result (.head _) (.tail _ (.head _))))) nofun .done)) (fun _ => rfl)
            (hrest _ _ _ (set_self _ _ _ _) (fun w h1 _ => set_other h1))
          look
        refine .letFn (by rw [hE.mod]; exact resolve_rt .in_ t hL.elem) h1 (.letIn (.lit (.newVec (t := rt look .in_ t))) ?_)
        dsimp only
        by_cases hf : t = .f64
        · subst hf
          rw [if_pos rfl]
          exact .seq (.mutate (set_self _ _ _ _) .reserveF64 (use_ty (by look))) nofun h2
        · rw [if_neg hf]
          exact h2
  | .bool, _, f, E, _, _, _, _, _, _, hs, hr, h, hρ, hp, hrest => by
    rw [deserializationInvocation]
    exact u64Deserialization_ty hs hr h hρ (fun e => hp (.inl e)) (.letIn (.bin .ne (use_ty (set_self _ _ _ _)) (.lit (.u64 (by decide))))
      (hrest E.elem _ _ (set_self _ _ _ _) (fun w h1 _ => by rw [set_other h1, set_other h1])))
  | .bytes, _, _, E, _, _, _, _, _, _, hs, hr, h, hρ, hp, hrest => by
    obtain ⟨m, hps⟩ := hp (.inr rfl)
    rw [deserializationInvocation]
    exact .letIn (.lit .newBytes) (.seq (.mutate (set_self _ _ _ _) .reserveBytes (use_ty (by look))) nofun
      (.seq (.try_ hr (.read (set_self _ _ _ _) .toEnd (reader_arg (by look) hρ .nil))) nofun
        (hrest E.elem _ _ (set_self _ _ _ _) (fun w h1 _ => set_other h1))))
  | .custom i n, hL, _, E, _, _, _, _, _, hE, hs, hr, h, hρ, hp, hrest => by
    rw [deserializationInvocation]
    exact .letIn (.try_ hr (.deserialize (o := look i n .out) (a := look i n .atlas) (by rw [hE.mod]; exact (hL i n (.custom i n)).1 .in_)
      (by rw [hE.impls]; exact (hL i n (.custom i n)).2) (reader_arg h hρ .nil))) (hrest E.elem _ _ (set_self _ _ _ _) (fun w h1 _ => set_other h1))
  | .f64, _, f, E, Γ, _, _, _, _, _, hs, hr, h, hρ, hp, hrest => by
    rw [deserializationInvocation]
    cases f with
    | true =>
      obtain ⟨m, hps⟩ := hp (.inl rfl)
      simp only [if_true]
      exact .letIn (.ifElse (.bin .eqUsize (use_ty hps) (.lit (.usize (by decide)))) (.lit .f64Zero) (.letIn (.lit .zeros)
        (.seq (readExact_ty hr (by look) hρ (set_self _ _ _ _)) nofun (.f64FromLeBytes (use_ty (set_self _ _ _ _))))))
        (hrest E.elem _ _ (set_self _ _ _ _) (fun w h1 _ => set_other h1))
    | false =>
      simp only [Bool.false_eq_true, if_false]
      exact .letIn (.lit .zeros) (.seq (readExact_ty hr (by look) hρ (set_self _ _ _ _)) nofun (.letIn (.f64FromLeBytes (use_ty (set_self _ _ _ _)))
        (hrest E.elem _ _ (set_self _ _ _ _) (fun w h1 h2 => by rw [set_other h1, set_other h2]))))
  | .s64, _, f, E, _, _, _, _, _, _, hs, hr, h, hρ, hp, hrest => by
    rw [deserializationInvocation]
    exact u64Deserialization_ty hs hr h hρ (fun e => hp (.inl e)) (.letIn (.runtime (f := .zigzagDecode) hs (one_param (use_ty (set_self _ _ _ _)) .nil))
      (hrest E.elem _ _ (set_self _ _ _ _) (fun w h1 _ => by rw [set_other h1, set_other h1])))
  | .string, _, _, E, _, _, _, _, _, _, hs, hr, h, hρ, hp, hrest => by
    obtain ⟨m, hps⟩ := hp (.inr rfl)
    rw [deserializationInvocation]
    exact .letIn (.lit .newString) (.seq (.mutate (set_self _ _ _ _) .reserveString (use_ty (by look))) nofun
      (.seq (.try_ hr (.read (set_self _ _ _ _) .toString (reader_arg (by look) hρ .nil))) nofun
        (hrest E.elem _ _ (set_self _ _ _ _) (fun w h1 _ => set_other h1))))
  | .u64, _, f, E, _, _, _, _, _, _, hs, hr, h, hρ, hp, hrest => by
    rw [deserializationInvocation]
    exact u64Deserialization_ty hs hr h hρ (fun e => hp (.inl e)) (hrest E.elem _ _ (set_self _ _ _ _) (fun w h1 _ => set_other h1))
  | .unit, _, f, E, _, _, _, _, _, _, hs, hr, h, hρ, hp, hrest => by
    rw [deserializationInvocation]
    exact .letIn (.lit .unit) (hrest E.elem _ _ (set_self _ _ _ _) (fun w h1 _ => set_other h1))

end

end Typical.Gen

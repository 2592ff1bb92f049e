import Verif.TsGen.TypeProof

/-!
# Helper: every strict value of a declared TypeScript type holds a message
-/

namespace Typical.TsGen

section
variable {T : CharTable} {S : Schemas} {H : Nat → Option Obj}

theorem find_unique {α : Type} {p : α → Bool} {a : α} : {l : List α} → a ∈ l → p a = true → (∀ b ∈ l, p b = true → b = a) → l.find? p = some a
  | b :: l, hm, hp, hu => by
    rw [List.find?_cons]
    cases hb : p b with
    | true => rw [hu b List.mem_cons_self hb]
    | false =>
      rcases List.mem_cons.mp hm with rfl | hm
      · rw [hp] at hb; cases hb
      · exact find_unique hm hp fun c hc => hu c (List.mem_cons_of_mem _ hc)

theorem member_mem {n : Str} {v : Val} : {o : List (Str × Val)} → member n o = some v → n ∈ o.map (·.1)
  | (m, w) :: o, h => by
    rw [member] at h
    rw [List.map_cons]
    by_cases e : m = n
    · rw [e]; exact List.mem_cons_self
    · rw [if_neg e] at h
      exact List.mem_cons_of_mem _ (member_mem h)

theorem scalar_of {ns : Namespace} {s : Schema} {tv : TypeVariant} {c : Scalar} {v : Val} {t : Tree} (hc : Gen.scalarType tv = some c)
    (h : JsType T S .out H ns s tv v t) : ∃ w : c.Val, v = jsScalar c w := by
  cases h with
  | scalar w h' => cases hc.symm.trans h'; exact ⟨w, rfl⟩
  | unit => cases hc
  | bytes => cases hc
  | string => cases hc
  | units => cases hc
  | scalars => cases hc
  | array => cases hc
  | custom => cases hc

theorem scalars_of {ns : Namespace} {s : Schema} {tv : TypeVariant} {c : Scalar} (hc : Gen.scalarType tv = some c) : (vs : List Val) →
    (∀ v ∈ vs, ∃ t, JsType T S .out H ns s tv v t) → ∃ l : List c.Val, vs = l.map (jsScalar c)
  | [], _ => ⟨[], rfl⟩
  | v :: vs, h => by
    obtain ⟨t, ht⟩ := h v List.mem_cons_self
    obtain ⟨w, rfl⟩ := scalar_of hc ht
    obtain ⟨l, rfl⟩ := scalars_of hc vs fun v hv => h v (List.mem_cons_of_mem _ hv)
    exact ⟨w :: l, rfl⟩

theorem nulls_of {ns : Namespace} {s : Schema} : (vs : List Val) → (∀ v ∈ vs, ∃ t, JsType T S .out H ns s .unit v t) → vs = List.replicate vs.length .null
  | [], _ => rfl
  | v :: vs, h => by
    have ih := nulls_of vs fun v hv => h v (List.mem_cons_of_mem _ hv)
    obtain ⟨t, ht⟩ := h v List.mem_cons_self
    cases ht with
    | unit => rw [List.length_cons, List.replicate_succ, ← ih]
    | scalar w h' => cases h'

theorem elems_of {ns : Namespace} {s : Schema} {tv : TypeVariant} : (vs : List Val) → (∀ v ∈ vs, ∃ t, JsType T S .out H ns s tv v t) →
    ∃ l, JsElems T S .out H ns s tv vs l
  | [], _ => ⟨[], .nil⟩
  | v :: vs, h => by
    obtain ⟨t, ht⟩ := h v List.mem_cons_self
    obtain ⟨l, hl⟩ := elems_of vs fun v hv => h v (List.mem_cons_of_mem _ hv)
    exact ⟨t :: l, .cons ht hl⟩

theorem array_of {ns : Namespace} {s : Schema} {tv : TypeVariant} {e : SourceRange} {r : Nat} {vs : List Val} (hr : H r = some (.arr vs))
    (hn : tv = .unit → vs.length < 2 ^ 64) (h : ∀ v ∈ vs, ∃ t, JsType T S .out H ns s tv v t) : ∃ t, JsType T S .out H ns s (.array e tv) (.arr r) t := by
  by_cases hu : tv = .unit
  · subst hu
    have hlen := hn rfl
    have hv := nulls_of vs h
    refine ⟨_, .units (UInt64.ofNat vs.length) ?_⟩
    rw [UInt64.toNat_ofNat', Nat.mod_eq_of_lt hlen, ← hv]
    exact hr
  · cases hc : Gen.scalarType tv with
    | some c =>
      obtain ⟨l, rfl⟩ := scalars_of hc vs h
      exact ⟨_, .scalars l hc hr⟩
    | none =>
      obtain ⟨l, hl⟩ := elems_of vs h
      exact ⟨_, .array hu hc hr hl⟩

theorem members_of {ns : Namespace} {s : Schema} {o : List (Str × Val)} : (fs : List Field) → (∀ f ∈ fs, ∃ w, member (tsCamel T f.name) o = some w ∧
    ((f.rule.mayOmit .out = true ∧ w = .undef) ∨ ∃ t, JsType T S .out H ns s f.type.variant w t)) → ∃ l, JsMembers T S .out H ns s fs o l
  | [], _ => ⟨[], .nil⟩
  | f :: fs, h => by
    obtain ⟨l, hl⟩ := members_of fs fun f hf => h f (List.mem_cons_of_mem _ hf)
    obtain ⟨w, hm, ⟨ho, rfl⟩ | ⟨t, ht⟩⟩ := h f List.mem_cons_self
    · exact ⟨l, .absent hm ho hl⟩
    · exact ⟨_, .present hm ht hl⟩

theorem selects_of {fs : List Field} {f : Field} {o : List (Str × Val)} (hn : FieldNames T fs) (hp : ∀ f ∈ fs, ¬ IsWord objectPrototype (tsCamel T f.name))
    (hf : f ∈ fs) (hm : tsCamel T f.name ∈ o.map (·.1)) (ho : ∀ n ∈ o.map (·.1), n = tsCamel T f.name ∨ n = "$fallback".toList) : JsSelects T fs f o .out := by
  refine find_unique hf ?_ fun g hg h => ?_
  · unfold hasProperty
    rw [Bool.or_eq_true]
    exact .inl (List.contains_iff_mem.mpr hm)
  · unfold hasProperty at h
    rcases Bool.or_eq_true _ _ ▸ h with h | h
    · rcases ho _ (List.contains_iff_mem.mp h) with h | h
      · by_contra hne
        exact (List.nodup_map_iff_inj_on (List.Nodup.of_map _ hn.nodup)).mp hn.nodup g hg f hf h |> hne
      · exact absurd (by rw [h]; simp) (hn.other g hg)
    · exact absurd ((any_isWord _ _).mp h) (hp g hg)

variable (hl : S.Loaded) (hN : NamesOk T S) (hT : TypeNames T S) (hw : S.WellFormed)
  (hp : ∀ e ∈ S, ∀ d ∈ e.2.declarations, d.variant = .choice → ∀ f ∈ d.fields, ¬ IsWord objectPrototype (tsCamel T f.name))
include hl hN hT hw hp

theorem has_holds {p : List Str} {τ : TsTy} {v : Val} (h : τ.Has (tsEnv T S) true H p v) :
    (∀ k ns s d l, S.Declares k ns s d → τ = .ref l (tsPascal T d.name (some .out)) →
      (tsEnv T S).lookup p l (tsPascal T d.name (some .out)) = some (modulePath T ns.components) → ∃ t, JsHolds T S .out H k v t) ∧
    (∀ ns s tv, Refs T S s ns tv → (∀ i n, tv.Mentions i n → ∃ k, s.RefersTo ns i n k ∧ ∃ ns₂ s₂ d₂, S.Declares k ns₂ s₂ d₂) → p = modulePath T ns.components →
      (τ = tyOf T s ns .out tv → ∃ t, JsType T S .out H ns s tv v t) ∧
      (τ = .orUndefined (tyOf T s ns .out tv) → v = .undef ∨ ∃ t, JsType T S .out H ns s tv v t)) := by
  induction h with
  | number b =>
    refine ⟨nofun, fun ns s tv hr hd hm => ⟨fun e => ?_, nofun⟩⟩
    cases tv <;> cases e
    exact ⟨_, .scalar (c := .f64) b rfl⟩
  | @boolean p b =>
    refine ⟨nofun, fun ns s tv hr hd hm => ⟨fun e => ?_, nofun⟩⟩
    cases tv <;> cases e
    exact ⟨_, .scalar (c := .bool) b rfl⟩
  | @bigint p signed n hi =>
    refine ⟨nofun, fun ns s tv hr hd hm => ⟨fun e => ?_, nofun⟩⟩
    have hi := hi rfl
    cases tv <;> cases e
    · rw [if_pos rfl] at hi
      have := @JsType.scalar T S .out H ns s .s64 .s64 (Int64.ofInt n) rfl
      unfold jsScalar at this
      dsimp only at this
      rw [Int64.toInt_ofInt_of_le hi.1 hi.2] at this
      exact ⟨_, this⟩
    · rw [if_neg (by nofun)] at hi
      have := @JsType.scalar T S .out H ns s .u64 .u64 (UInt64.ofNat n.toNat) rfl
      unfold jsScalar at this
      dsimp only at this
      rw [UInt64.toNat_ofNat', Nat.mod_eq_of_lt (by omega), Int.toNat_of_nonneg hi.1] at this
      exact ⟨_, this⟩
  | string u =>
    refine ⟨nofun, fun ns s tv hr hd hm => ⟨fun e => ?_, nofun⟩⟩
    cases tv <;> cases e
    exact ⟨_, .string u⟩
  | null =>
    refine ⟨nofun, fun ns s tv hr hd hm => ⟨fun e => ?_, nofun⟩⟩
    cases tv <;> cases e
    exact ⟨_, .unit⟩
  | arrayBuffer h =>
    refine ⟨nofun, fun ns s tv hr hd hm => ⟨fun e => ?_, nofun⟩⟩
    cases tv <;> cases e
    exact ⟨_, .bytes h⟩
  | literal =>
    refine ⟨nofun, fun ns s tv hr hd hm => ⟨fun e => ?_, nofun⟩⟩
    cases tv <;> cases e
  | array h hn hv ih =>
    refine ⟨nofun, fun ns s tv hr hd hm => ⟨fun e => ?_, nofun⟩⟩
    cases tv <;> cases e
    refine array_of h (fun e => hn ?_) fun v hv => ((ih v hv).2 ns s _ hr.elem (fun i n h => hd i n (.array h)) hm).1 rfl
    subst e
    rfl
  | undefined =>
    refine ⟨nofun, fun ns s tv hr hd hm => ⟨fun e => ?_, fun _ => .inl rfl⟩⟩
    cases tv <;> cases e
  | defined h ih =>
    refine ⟨nofun, fun ns s tv hr hd hm => ⟨fun e => ?_, fun e => ?_⟩⟩
    · cases tv <;> cases e
    · cases e
      exact .inr ((ih.2 ns s tv hr hd hm).1 rfl)
  | @ref p l n q def_ props o g hlk hty halt hm hh hs ih =>
    have main : ∀ k ns s d, S.Declares k ns s d → n = tsPascal T d.name (some .out) → q = modulePath T ns.components → ∃ t, JsHolds T S .out H k (.obj o) t := by
      rintro k ns s d hd rfl rfl
      have hty' := types_defined hl hN hT hd .out
      cases hty.symm.trans hty'
      have refs : ∀ f ∈ d.fields, Refs T S s ns f.type.variant := fun f hf _ _ _ hm => hT.references _ hd.1 d hd.2.1 f hf _ _ _ hm
      have exist := fun f (hf : f ∈ d.fields) => (hw.declarations _ hd.1 _ hd.2.1).types f hf
      unfold declDef at halt
      cases hv : d.variant with
      | struct =>
        rw [hv] at halt
        cases halt
        have := members_of (T := T) (S := S) (H := H) (ns := ns) (s := s) (o := o) d.fields fun f hf => by
          have hmem : (tsCamel T f.name, memberTy T s ns .out f) ∈ (if NameSuffix.out = .atlas then [("$size".toList, TsTy.number)] else []) ++
              d.fields.map (fun f => (tsCamel T f.name, memberTy T s ns .out f)) := List.mem_append_right _ (List.mem_map.mpr ⟨f, hf, rfl⟩)
          refine ⟨_, hm _ _ hmem, ?_⟩
          have h := (ih _ _ hmem).2 ns s f.type.variant (refs f hf) (exist f hf) rfl
          unfold memberTy at h
          rw [show memberOptional .out f.rule = f.rule.mayOmit .out from memberOptional_eq .out _] at h
          cases ho : f.rule.mayOmit .out with
          | true =>
            rw [ho, if_pos rfl] at h
            exact (h.2 rfl).imp (fun e => ⟨rfl, e⟩) id
          | false =>
            rw [ho, if_neg (by nofun)] at h
            exact .inr (h.1 rfl)
        obtain ⟨t, ht⟩ := this
        exact ⟨_, .struct hd hv nofun ht⟩
      | choice =>
        rw [hv] at halt
        have halt : props ∈ d.fields.map (variantProps T s ns d .out) := by
          rcases List.mem_append.mp halt with h | h
          · exact h
          · rw [if_neg (by nofun)] at h
            cases h
        obtain ⟨f, hf, rfl⟩ := List.mem_map.mp halt
        have hmem : (tsCamel T f.name, tyOf T s ns .out f.type.variant) ∈ variantProps T s ns d .out f := by
          unfold variantProps
          exact List.mem_append_left _ (List.mem_append_right _ (List.mem_singleton.mpr rfl))
        have h1 := hm _ _ hmem
        obtain ⟨t, ht⟩ := ((ih _ _ hmem).2 ns s f.type.variant (refs f hf) (exist f hf) rfl).1 rfl
        have hsel : JsSelects T d.fields f o .out := by
          refine selects_of (hN.fields _ hd.1 d hd.2.1) (hp _ hd.1 d hd.2.1 hv) hf (member_mem h1) fun n hn => ?_
          have hn := hs rfl n hn
          unfold variantProps at hn
          rw [List.map_append] at hn
          rcases List.mem_append.mp hn with hn | hn
          · exact .inl (List.mem_singleton.mp hn)
          · split at hn
            · exact .inr (List.mem_singleton.mp hn)
            · cases hn
        cases hfb : f.rule.hasFallback .out with
        | false => exact ⟨_, .last hd hv hsel hfb h1 ht⟩
        | true =>
          have hmem' : ("$fallback".toList, TsTy.ref [] (tsPascal T d.name (some .out))) ∈ variantProps T s ns d .out f := by
            unfold variantProps
            rw [show variantFallback .out f.rule = f.rule.hasFallback .out from variantFallback_eq .out _, hfb]
            exact List.mem_append_right _ (List.mem_singleton.mpr rfl)
          obtain ⟨u, hu⟩ := (ih _ _ hmem').1 k ns s d [] hd rfl (lookup_self hty')
          have h2 := hm _ _ hmem'
          have : ∃ l, u = .fields l := by
            generalize g "$fallback".toList = y at hu
            cases hu <;> exact ⟨_, rfl⟩
          obtain ⟨l, rfl⟩ := this
          exact ⟨_, .more hd hv hsel hfb h1 ht h2 hu⟩
    refine ⟨fun k ns s d l' hd e hlk' => ?_, fun ns s tv hr hd hm => ⟨fun e => ?_, nofun⟩⟩
    · cases e
      exact main k ns s d hd rfl (Option.some.inj (hlk.symm.trans hlk'))
    · cases tv <;> cases e
      rename_i i m
      obtain ⟨k, hk, ns₂, s₂, d₂, hd₂⟩ := hd i m (.custom i m)
      obtain ⟨e1, e2⟩ := hr i m k (.custom i m) hk ns₂ s₂ d₂ hd₂ .out
      rw [← hm] at e2
      obtain ⟨t, ht⟩ := main k ns₂ s₂ d₂ hd₂ e1 (Option.some.inj (hlk.symm.trans e2))
      exact ⟨t, .custom hk ht⟩
end

end Typical.TsGen

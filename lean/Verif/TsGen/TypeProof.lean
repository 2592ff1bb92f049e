import Verif.TsGen.TypeEnv

/-!
# Helper: values of declared TypeScript types, and messages
-/

namespace Typical.TsGen

/-- The suffix of the name of a type. -/
def suffixOf : Dir → NameSuffix
  | .out => .out
  | .inn => .in_

theorem suffix_ne (x : Dir) : suffixOf x ≠ .atlas := by cases x <;> nofun

theorem memberOptional_eq (x : Dir) (r : Rule) : memberOptional (suffixOf x) r = r.mayOmit x := by cases x <;> cases r <;> rfl
theorem variantFallback_eq (x : Dir) (r : Rule) : variantFallback (suffixOf x) r = r.hasFallback x := by cases x <;> cases r <;> rfl

/-- References in a type expression lead to the types which are meant. -/
def Refs (T : CharTable) (S : Schemas) (s : Schema) (ns : Namespace) (tv : TypeVariant) : Prop :=
  ∀ i n k, tv.Mentions i n → s.RefersTo ns i n k → ∀ ns₂ s₂ d₂, S.Declares k ns₂ s₂ d₂ → ∀ x : NameSuffix, tsPascal T n (some x) = tsPascal T d₂.name (some x) ∧
    (tsEnv T S).lookup (modulePath T ns.components) (namespacePath T s ns i) (tsPascal T n (some x)) = some (modulePath T ns₂.components)

section
variable {T : CharTable} {S : Schemas} {x : Dir} {H : Nat → Option Obj}

theorem Refs.elem {s : Schema} {ns : Namespace} {r : SourceRange} {t : TypeVariant} (h : Refs T S s ns (.array r t)) : Refs T S s ns t :=
  fun i n k hm => h i n k (.array hm)

theorem tyOf_array (s : Schema) (ns : Namespace) (r : SourceRange) (t : TypeVariant) : tyOf T s ns (suffixOf x) (.array r t) = .array (tyOf T s ns (suffixOf x) t) := by
  rw [tyOf, if_neg (suffix_ne x)]

theorem tyOf_null {s : Schema} {ns : Namespace} {tv : TypeVariant} (h : tyOf T s ns (suffixOf x) tv = .null) : tv = .unit := by
  cases tv <;> unfold tyOf at h <;> (try rw [if_neg (suffix_ne x)] at h) <;> first | rfl | cases h

theorem scalar_has {E : TsEnv} {b : Bool} {p : List Str} {s : Schema} {ns : Namespace} {tv : TypeVariant} {c : Scalar} (h : Gen.scalarType tv = some c) (v : c.Val) :
    (tyOf T s ns (suffixOf x) tv).Has E b H p (jsScalar c v) := by
  cases tv <;> cases h <;> unfold tyOf <;> (try rw [if_neg (suffix_ne x)])
  · exact .boolean
  · exact .number v
  · refine .bigint fun _ => ?_
    rw [if_pos rfl]
    exact ⟨Int64.le_toInt v, Int64.toInt_lt v⟩
  · refine .bigint fun _ => ?_
    rw [if_neg (by nofun)]
    have := UInt64.toNat_lt v
    exact ⟨by omega, by omega⟩

theorem has_ref {E : TsEnv} {b : Bool} {p p' q : List Str} {l l' : List Str} {n : Str} {v : Val} (h : (TsTy.ref l n).Has E b H p v) (h1 : E.lookup p l n = some q)
    (h2 : E.lookup p' l' n = some q) : (TsTy.ref l' n).Has E b H p' v := by
  cases h with
  | ref g e1 e2 e3 e4 e5 e6 =>
    cases h1.symm.trans e1
    exact .ref g h2 e2 e3 e4 e5 e6

/-- In a larger heap. -/
theorem TsTy.Has.heap {E : TsEnv} {b : Bool} {H' : Nat → Option Obj} (hH : ∀ r o, H r = some o → H' r = some o) {p : List Str} {t : TsTy} {v : Val}
    (h : t.Has E b H p v) : t.Has E b H' p v := by
  induction h with
  | number bits => exact .number bits
  | boolean => exact .boolean
  | bigint h => exact .bigint h
  | string u => exact .string u
  | null => exact .null
  | arrayBuffer h => exact .arrayBuffer (hH _ _ h)
  | literal => exact .literal
  | array h hn _ ih => exact .array (hH _ _ h) hn ih
  | undefined => exact .undefined
  | defined _ ih => exact .defined ih
  | ref g h1 h2 h3 h4 _ h6 ih => exact .ref g h1 h2 h3 h4 ih h6

variable (hl : S.Loaded) (hN : NamesOk T S) (hT : TypeNames T S)
include hl hN hT

omit hl hN hT in
theorem JsSelects.mem {fs : List Field} {f : Field} {o : List (Str × Val)} (hs : JsSelects T fs f o x) : f ∈ fs := by
  cases x with
  | out => exact List.mem_of_find?_eq_some hs
  | inn => exact hs.1

theorem choice_has {k : List Str × Str} {ns : Namespace} {s : Schema} {d : Declaration} (hd : S.Declares k ns s d) (hv : d.variant = .choice) {f : Field}
    {o : List (Str × Val)} {w : Val} (hs : JsSelects T d.fields f o x) (hm : member (tsCamel T f.name) o = some w)
    (ih : (tyOf T s ns (suffixOf x) f.type.variant).Has (tsEnv T S) (decide (x = .inn)) H (modulePath T ns.components) w)
    (hfb : f.rule.hasFallback x = true → ∃ u, member "$fallback".toList o = some u ∧
      (TsTy.ref [] (tsPascal T d.name (some (suffixOf x)))).Has (tsEnv T S) (decide (x = .inn)) H (modulePath T ns.components) u) :
    (TsTy.ref [] (tsPascal T d.name (some (suffixOf x)))).Has (tsEnv T S) (decide (x = .inn)) H (modulePath T ns.components) (.obj o) := by
  have hty := types_defined hl hN hT hd (suffixOf x)
  have both : ∀ n t, (n, t) ∈ variantProps T s ns d (suffixOf x) f → ∃ u, member n o = some u ∧
      t.Has (tsEnv T S) (decide (x = .inn)) H (modulePath T ns.components) u := by
    intro n t hn
    unfold variantProps at hn
    rw [variantFallback_eq] at hn
    rcases List.mem_append.mp hn with hn | hn
    · rcases List.mem_append.mp hn with hn | hn
      · cases x with
        | out => cases hn
        | inn =>
          cases List.mem_singleton.mp hn
          exact ⟨_, hs.2.1, .literal⟩
      · cases List.mem_singleton.mp hn
        exact ⟨_, hm, ih⟩
    · split at hn
      · rename_i h
        cases List.mem_singleton.mp hn
        exact hfb h
      · cases hn
  refine .ref (fun n => (member n o).getD .undef) (lookup_self hty) hty (props := variantProps T s ns d (suffixOf x) f) ?_ ?_ ?_ ?_
  · unfold declDef
    rw [hv]
    exact List.mem_append_left _ (List.mem_map.mpr ⟨f, hs.mem, rfl⟩)
  · intro n t hn
    obtain ⟨u, h1, -⟩ := both n t hn
    rw [h1]
    rfl
  · intro n t hn
    obtain ⟨u, h1, h2⟩ := both n t hn
    rw [h1]
    exact h2
  · intro hb
    have hx := of_decide_eq_true hb
    subst hx
    obtain ⟨-, -, hk⟩ := hs
    rw [hk]
    unfold variantProps
    rw [variantFallback_eq, List.map_append]
    intro n hn
    rcases List.mem_append.mp hn with hn | hn
    · exact List.mem_append_left _ hn
    · refine List.mem_append_right _ ?_
      split at hn
      · rename_i h
        rw [if_pos h]
        exact hn
      · cases hn

variable (hw : S.WellFormed)
include hw

mutual
/-- What holds a message is a value of the declared type. -/
theorem JsHolds.has {k : List Str × Str} {v : Val} {t : Tree} : JsHolds T S x H k v t → ∃ ns s d, S.Declares k ns s d ∧
    (TsTy.ref [] (tsPascal T d.name (some (suffixOf x)))).Has (tsEnv T S) (decide (x = .inn)) H (modulePath T ns.components) v
  | @JsHolds.struct _ _ _ _ _ ns s d o l hd hv hk hm => by
    have ih := JsMembers.has hd (fun _ h => h) hm
    refine ⟨ns, s, d, hd, ?_⟩
    have ht := types_defined hl hN hT hd (suffixOf x)
    classical
    let g : Str → Val := fun n => (member n o).getD .undef
    have hdef : declDef T s ns d (suffixOf x) = .object (d.fields.map (fun f => (tsCamel T f.name, memberTy T s ns (suffixOf x) f))) := by
      unfold declDef
      rw [hv, if_neg (suffix_ne x)]
      rfl
    rw [hdef] at ht
    refine .ref g (lookup_self ht) ht rfl ?_ ?_ ?_
    · intro n t hn
      obtain ⟨f, hf, e⟩ := List.mem_map.mp hn
      cases e
      obtain ⟨w, h1, -⟩ := ih f hf
      simp only [g, h1, Option.getD_some]
    · intro n t hn
      obtain ⟨f, hf, e⟩ := List.mem_map.mp hn
      cases e
      obtain ⟨w, h1, h2⟩ := ih f hf
      simp only [g, h1, Option.getD_some]
      exact h2
    · intro hb n hn
      rw [hk (of_decide_eq_true hb)] at hn
      rw [List.map_map]
      exact hn
  | @JsHolds.last _ _ _ _ _ ns s d f o w t hd hv hs hf hm ht =>
    have ih := JsType.has hd (fun _ _ _ hm => hT.references _ hd.1 d hd.2.1 f hs.mem _ _ _ hm) ht
    ⟨ns, s, d, hd, choice_has hl hN hT hd hv hs hm ih fun h => by rw [hf] at h; cases h⟩
  | @JsHolds.more _ _ _ _ _ ns s d f o w t u l hd hv hs hf hm ht hm' hh => by
    have ih := JsType.has hd (fun _ _ _ hm => hT.references _ hd.1 d hd.2.1 f hs.mem _ _ _ hm) ht
    obtain ⟨ns', s', d', hd', ih'⟩ := JsHolds.has hh
    obtain ⟨rfl, rfl, rfl⟩ := Declares.unique hl hw.names hd hd'
    exact ⟨ns, s, d, hd, choice_has hl hN hT hd hv hs hm ih fun _ => ⟨_, hm', ih'⟩⟩
/-- Properties. -/
theorem JsMembers.has {k : List Str × Str} {ns : Namespace} {s : Schema} {d : Declaration} (hd : S.Declares k ns s d) {fs : List Field} (hsub : ∀ f ∈ fs, f ∈ d.fields)
    {o : List (Str × Val)} {l : List (Nat × Tree)} : JsMembers T S x H ns s fs o l → ∀ f ∈ fs, ∃ w, member (tsCamel T f.name) o = some w ∧
      (memberTy T s ns (suffixOf x) f).Has (tsEnv T S) (decide (x = .inn)) H (modulePath T ns.components) w
  | .nil => nofun
  | .present hm ht hr => by
    have ih := JsType.has hd (fun _ _ _ hm => hT.references _ hd.1 d hd.2.1 _ (hsub _ List.mem_cons_self) _ _ _ hm) ht
    have ih' := JsMembers.has hd (fun f hf => hsub f (List.mem_cons_of_mem _ hf)) hr
    intro f hf
    rcases List.mem_cons.mp hf with rfl | hf
    · refine ⟨_, hm, ?_⟩
      unfold memberTy
      split
      · exact .defined ih
      · exact ih
    · exact ih' f hf
  | .absent hm ho hr => by
    have ih' := JsMembers.has hd (fun f hf => hsub f (List.mem_cons_of_mem _ hf)) hr
    intro f hf
    rcases List.mem_cons.mp hf with rfl | hf
    · refine ⟨_, hm, ?_⟩
      unfold memberTy
      rw [memberOptional_eq, if_pos ho]
      exact .undefined
    · exact ih' f hf
/-- Values of fields. -/
theorem JsType.has {k : List Str × Str} {ns : Namespace} {s : Schema} {d : Declaration} (hd : S.Declares k ns s d) {tv : TypeVariant} (hr : Refs T S s ns tv)
    {v : Val} {t : Tree} : JsType T S x H ns s tv v t →
      (tyOf T s ns (suffixOf x) tv).Has (tsEnv T S) (decide (x = .inn)) H (modulePath T ns.components) v
  | .unit => by rw [tyOf, if_neg (suffix_ne x)]; exact .null
  | .scalar v h => scalar_has h v
  | .bytes h => by rw [tyOf, if_neg (suffix_ne x)]; exact .arrayBuffer h
  | .string u => by rw [tyOf, if_neg (suffix_ne x)]; exact .string u
  | .units n h => by
    rw [tyOf_array]
    refine .array h (fun _ => ?_) fun v hv => ?_
    · rw [List.length_replicate]
      exact UInt64.toNat_lt n
    · rw [(List.mem_replicate.mp hv).2, tyOf, if_neg (suffix_ne x)]
      exact .null
  | .scalars l h h' => by
    rw [tyOf_array]
    refine .array h' (fun hn => ?_) fun v hv => ?_
    · cases tyOf_null hn
      cases h
    · obtain ⟨w, -, rfl⟩ := List.mem_map.mp hv
      exact scalar_has h w
  | .array hu _ h he => by
    have ih := JsElems.has hd hr.elem he
    rw [tyOf_array]
    exact .array h (fun hn => absurd (tyOf_null hn) hu) ih
  | @JsType.custom _ _ _ _ _ _ i n k' _ _ h hh => by
    obtain ⟨ns₂, s₂, d₂, hd₂, ih⟩ := JsHolds.has hh
    obtain ⟨e1, e2⟩ := hr i n k' (.custom i n) h ns₂ s₂ d₂ hd₂ (suffixOf x)
    unfold tyOf
    rw [← e1] at ih
    exact has_ref ih (lookup_self (by rw [e1]; exact types_defined hl hN hT hd₂ (suffixOf x))) e2
/-- Elements. -/
theorem JsElems.has {k : List Str × Str} {ns : Namespace} {s : Schema} {d : Declaration} (hd : S.Declares k ns s d) {tv : TypeVariant} (hr : Refs T S s ns tv)
    {vs : List Val} {l : List Tree} : JsElems T S x H ns s tv vs l → ∀ v ∈ vs,
      (tyOf T s ns (suffixOf x) tv).Has (tsEnv T S) (decide (x = .inn)) H (modulePath T ns.components) v
  | .nil => nofun
  | .cons h hs => by
    have ih := JsType.has hd hr h
    have ih' := JsElems.has hd hr hs
    intro v hv
    rcases List.mem_cons.mp hv with rfl | hv
    · exact ih
    · exact ih' v hv
end
end

end Typical.TsGen

import Verif.Gen.Items
import Verif.Front.ValidatorLemmas

/-!
# Helper: values of generated types are the values which hold messages
-/

namespace Typical.Gen

/-- Types of fields which are neither arrays nor named. -/
def basic : TypeVariant → Bool
  | .array _ _ => false
  | .custom _ _ => false
  | _ => true

/-- The generated types for a type expression which occurs in the file `s`. -/
inductive TypeIs (T : CharTable) (S : Schemas) (x : NameSuffix) (ns : Namespace) (s : Schema) : TypeVariant → RT → Prop
  | bool : x ≠ .atlas → TypeIs T S x ns s .bool .bool
  | bytes : x ≠ .atlas → TypeIs T S x ns s .bytes (.vec .u8)
  | f64 : x ≠ .atlas → TypeIs T S x ns s .f64 .f64
  | s64 : x ≠ .atlas → TypeIs T S x ns s .s64 .i64
  | string : x ≠ .atlas → TypeIs T S x ns s .string .string
  | u64 : x ≠ .atlas → TypeIs T S x ns s .u64 .u64
  | unit : x ≠ .atlas → TypeIs T S x ns s .unit .unit
  | array {r t τ} : x ≠ .atlas → TypeIs T S x ns s t τ → TypeIs T S x ns s (.array r t) (.vec τ)
  | custom {i n k ns₂ s₂ d₂} : s.RefersTo ns i n k → S.Declares k ns₂ s₂ d₂ → TypeIs T S x ns s (.custom i n) (.named ((declName T ns₂ d₂).id x))
  | atlasOfArray {r t τ} : x = .atlas → sized t = true → TypeIs T S x ns s t τ → TypeIs T S x ns s (.array r t) (.pair .usize (.vec τ))
  | atlasOfScalars {r t} : x = .atlas → sized t = false → TypeIs T S x ns s (.array r t) .usize
  | atlasOfBasic {t} : x = .atlas → basic t = true → TypeIs T S x ns s t .usize

theorem resolve_typeOf {T : CharTable} {S : Schemas} {ns ns' : Namespace} {s : Schema} {mod : List Str} (x : NameSuffix) : (tv : TypeVariant) →
    (∀ i n, tv.Mentions i n → ∃ k, s.RefersTo ns i n k ∧ ∃ ns₂ s₂ d₂, S.Declares k ns₂ s₂ d₂ ∧
      (TypeEx.path (typePath T s ns' i n x)).resolve mod = some (.named ((declName T ns₂ d₂).id x))) →
    ∃ τ, (typeOf T s ns' x tv).resolve mod = some τ ∧ TypeIs T S x ns s tv τ
  | .array r t, h => by
    obtain ⟨τ, h1, h2⟩ := resolve_typeOf x t (fun i n hm => h i n (.array hm))
    unfold typeOf
    by_cases hx : x = .atlas
    · rw [if_pos hx]
      by_cases ht : sized t = true
      · rw [if_pos ht]
        exact ⟨_, by simp only [TypeEx.resolve, h1, Option.map_some], .atlasOfArray hx ht h2⟩
      · rw [if_neg ht]
        exact ⟨_, rfl, .atlasOfScalars hx (by simpa using ht)⟩
    · rw [if_neg hx]
      exact ⟨_, by simp only [TypeEx.resolve, h1, Option.map_some], .array hx h2⟩
  | .custom i n, h => by
    obtain ⟨k, h1, ns₂, s₂, d₂, h2, h3⟩ := h i n (.custom i n)
    exact ⟨_, h3, .custom h1 h2⟩
  | .bool, _ => by
    by_cases hx : x = .atlas
    · exact ⟨_, by rw [typeOf, if_pos hx]; rfl, .atlasOfBasic hx rfl⟩
    · exact ⟨_, by rw [typeOf, if_neg hx]; rfl, .bool hx⟩
  | .bytes, _ => by
    by_cases hx : x = .atlas
    · exact ⟨_, by rw [typeOf, if_pos hx]; rfl, .atlasOfBasic hx rfl⟩
    · exact ⟨_, by rw [typeOf, if_neg hx]; rfl, .bytes hx⟩
  | .f64, _ => by
    by_cases hx : x = .atlas
    · exact ⟨_, by rw [typeOf, if_pos hx]; rfl, .atlasOfBasic hx rfl⟩
    · exact ⟨_, by rw [typeOf, if_neg hx]; rfl, .f64 hx⟩
  | .s64, _ => by
    by_cases hx : x = .atlas
    · exact ⟨_, by rw [typeOf, if_pos hx]; rfl, .atlasOfBasic hx rfl⟩
    · exact ⟨_, by rw [typeOf, if_neg hx]; rfl, .s64 hx⟩
  | .string, _ => by
    by_cases hx : x = .atlas
    · exact ⟨_, by rw [typeOf, if_pos hx]; rfl, .atlasOfBasic hx rfl⟩
    · exact ⟨_, by rw [typeOf, if_neg hx]; rfl, .string hx⟩
  | .u64, _ => by
    by_cases hx : x = .atlas
    · exact ⟨_, by rw [typeOf, if_pos hx]; rfl, .atlasOfBasic hx rfl⟩
    · exact ⟨_, by rw [typeOf, if_neg hx]; rfl, .u64 hx⟩
  | .unit, _ => by
    by_cases hx : x = .atlas
    · exact ⟨_, by rw [typeOf, if_pos hx]; rfl, .atlasOfBasic hx rfl⟩
    · exact ⟨_, by rw [typeOf, if_neg hx]; rfl, .unit hx⟩

/-- A declaration of the generated program: the module which is written for it, its types, and those of its fields. -/
theorem declared {T : CharTable} {S : Schemas} (hw : S.WellFormed) (hD : Defines T S) {k : List Str × Str} {ns : Namespace} {s : Schema} {d : Declaration}
    (hd : S.Declares k ns s d) : ∃ ns' : Namespace, ns'.components.map rustSnake = ns.components.map rustSnake ∧
      (∀ x, items T S ((declName T ns d).id x) = some (declItem T s ns' d x)) ∧
      (∀ f : Fn, program T S ((declName T ns d).id f.owner) f = some ((declCode T s ns' d).body f)) ∧
      ∀ f ∈ d.fields, ∀ x, ∃ τ, (typeOf T s ns' x f.type.variant).resolve (ns.components.map rustSnake) = some τ ∧ TypeIs T S x ns s f.type.variant τ := by
  obtain ⟨ns', h1, h2, h3, h4⟩ := hD _ _ _ _ hd
  refine ⟨ns', h1, h2, h3, fun f hf x => resolve_typeOf x _ fun i n hm => ?_⟩
  obtain ⟨k', e1, ns₂, s₂, d₂, e2⟩ := (hw.declarations _ hd.1 _ hd.2.1).types f hf i n hm
  exact ⟨k', e1, ns₂, s₂, d₂, e2, h4 f hf i n k' hm e1 _ _ _ e2 x⟩

theorem memberOptional_suffix (x : Dir) (r : Rule) : memberOptional (suffix x) r = r.mayOmit x := by cases x <;> cases r <;> rfl

theorem variantFallback_suffix (x : Dir) (r : Rule) : variantFallback (suffix x) r = r.hasFallback x := by cases x <;> cases r <;> rfl

theorem suffix_ne (x : Dir) : suffix x ≠ .atlas := by cases x <;> nofun

section
variable {T : CharTable} {S : Schemas} (hl : S.Loaded) (hw : S.WellFormed) (hD : Defines T S)

theorem declItem_struct {T : CharTable} {s : Schema} {ns : Namespace} {d : Declaration} (hv : d.variant = .struct) (x : Dir) :
    declItem T s ns d (suffix x) = .struct (rustPascal T d.name (some (suffix x))) (d.fields.map (fun f => (rustSnake f.name,
      if f.rule.mayOmit x = true then .option (typeOf T s ns (suffix x) f.type.variant) else typeOf T s ns (suffix x) f.type.variant))) := by
  unfold declItem
  rw [hv]
  simp only [structItem, if_neg (suffix_ne x), List.nil_append, memberOptional_suffix]

theorem declItem_choice {T : CharTable} {s : Schema} {ns : Namespace} {d : Declaration} (hv : d.variant = .choice) (x : Dir) :
    declItem T s ns d (suffix x) = .enum (rustPascal T d.name (some (suffix x))) (d.fields.map (fun f => (rustPascal T f.name none,
      (if f.type.variant = .unit then [] else [typeOf T s ns (suffix x) f.type.variant]) ++
      (if f.rule.hasFallback x = true then [.box (.path ⟨0, [], rustPascal T d.name (some (suffix x))⟩)] else [])))) := by
  unfold declItem
  rw [hv]
  simp only [choiceItem, variantTypes, if_neg (suffix_ne x), List.nil_append, variantFallback_suffix, suffix_ne x, false_or, ne_eq, ite_not, if_false, List.nil_append]

theorem resolve_self (mod : List Str) (name : Str) : (TypeEx.box (.path ⟨0, [], name⟩)).resolve mod = some (.box (.named (mod, name))) := by
  simp [TypeEx.resolve, rustResolve]

theorem scalar_hasType {E : Items} {x : NameSuffix} {ns : Namespace} {s : Schema} {tv : TypeVariant} {c : Scalar} (h : scalarType tv = some c) {τ : RT}
    (hx : x ≠ .atlas) (ht : TypeIs T S x ns s tv τ) (v : c.Val) : HasType E τ (encScalar c v) := by
  cases ht with
  | bool _ => cases h; exact .bool
  | f64 _ => cases h; exact .f64
  | s64 _ => cases h; exact .i64
  | u64 _ => cases h; exact .u64
  | atlasOfBasic h _ => exact absurd h hx
  | _ => cases h

theorem components_append {E : Items} {mod : List Str} {ts ts' : List TypeEx} {l l' : List Val} : (h : HasComponents E mod ts l) →
    HasComponents E mod ts' l' → HasComponents E mod (ts ++ ts') (l ++ l')
  | .nil, h' => h'
  | .cons a b c, h' => .cons a b (components_append c h')

theorem replicate_hasTypes {E : Items} : (n : Nat) → HasTypes E .unit (List.replicate n .unit)
  | 0 => .nil
  | n + 1 => .cons .unit (replicate_hasTypes n)

include hl hw hD

mutual
theorem holds_hasType {x : Dir} {k : List Str × Str} {v : Val} {t : Tree} : Holds T S x k v t → ∀ {ns s d}, S.Declares k ns s d →
    HasType (items T S) (.named (generatedType T ns d x)) v
  | @Holds.struct _ _ _ _ _ _ _ _ _ hd hv hm, ns, s, d, hd' => by
    obtain ⟨rfl, rfl, rfl⟩ := Declares.unique hl hw.names hd hd'
    obtain ⟨ns', h1, h2, h3, h4⟩ := declared hw hD hd
    refine .struct ((h2 (suffix x)).trans (by rw [declItem_struct hv])) (holds_members hm hd.1 _ fun f hf => h4 f hf (suffix x))
  | @Holds.last _ _ _ _ _ _ _ f _ _ hd hv hf hr hp, ns, s, d, hd' => by
    obtain ⟨rfl, rfl, rfl⟩ := Declares.unique hl hw.names hd hd'
    obtain ⟨ns', h1, h2, h3, h4⟩ := declared hw hD hd
    refine .variant ((h2 (suffix x)).trans (by rw [declItem_choice hv])) (List.mem_map.mpr ⟨f, hf, rfl⟩) ?_
    simp only [hr, Bool.false_eq_true, if_false, List.append_nil]
    exact holds_payload hp hd.1 (h4 f hf (suffix x))
  | @Holds.more _ _ _ _ _ _ _ f _ _ _ _ hd hv hf hr hp hm, ns, s, d, hd' => by
    obtain ⟨rfl, rfl, rfl⟩ := Declares.unique hl hw.names hd hd'
    obtain ⟨ns', h1, h2, h3, h4⟩ := declared hw hD hd
    refine .variant ((h2 (suffix x)).trans (by rw [declItem_choice hv])) (List.mem_map.mpr ⟨f, hf, rfl⟩) ?_
    rw [hr, if_pos rfl]
    exact components_append (holds_payload hp hd.1 (h4 f hf (suffix x))) (.cons (resolve_self _ _) (.box (holds_hasType hm hd)) .nil)
theorem holds_members {x : Dir} {ns : Namespace} {s : Schema} {fs : List Field} {ms : List (Str × Val)} {l : List (Nat × Tree)} :
    HoldsMembers T S x ns s fs ms l → (ns, s) ∈ S → ∀ ns' : Namespace,
    (∀ f ∈ fs, ∃ τ, (typeOf T s ns' (suffix x) f.type.variant).resolve (ns.components.map rustSnake) = some τ ∧ TypeIs T S (suffix x) ns s f.type.variant τ) →
    HasMembers (items T S) (ns.components.map rustSnake) (fs.map (fun f => (rustSnake f.name,
      if f.rule.mayOmit x = true then .option (typeOf T s ns' (suffix x) f.type.variant) else typeOf T s ns' (suffix x) f.type.variant))) ms
  | .nil, _, _, _ => .nil
  | @HoldsMembers.plain _ _ _ _ _ f _ _ _ _ _ hr ht hm, hs, ns', h => by
    obtain ⟨τ, h1, h2⟩ := h f List.mem_cons_self
    rw [List.map_cons, hr, if_neg nofun]
    exact .cons h1 (holds_type ht hs h2) (holds_members hm hs ns' fun g hg => h g (List.mem_cons_of_mem _ hg))
  | @HoldsMembers.present _ _ _ _ _ f _ _ _ _ _ hr ht hm, hs, ns', h => by
    obtain ⟨τ, h1, h2⟩ := h f List.mem_cons_self
    rw [List.map_cons, hr, if_pos rfl]
    exact .cons (τ := .option τ) (by rw [TypeEx.resolve, h1]; rfl) (.some (holds_type ht hs h2))
      (holds_members hm hs ns' fun g hg => h g (List.mem_cons_of_mem _ hg))
  | @HoldsMembers.absent _ _ _ _ _ f _ _ _ hr hm, hs, ns', h => by
    obtain ⟨τ, h1, h2⟩ := h f List.mem_cons_self
    rw [List.map_cons, hr, if_pos rfl]
    exact .cons (τ := .option τ) (by rw [TypeEx.resolve, h1]; rfl) .none (holds_members hm hs ns' fun g hg => h g (List.mem_cons_of_mem _ hg))
theorem holds_payload {x : Dir} {ns : Namespace} {s : Schema} {tv : TypeVariant} {vs : List Val} {t : Tree} :
    HoldsPayload T S x ns s tv vs t → (ns, s) ∈ S → ∀ {ns' : Namespace},
    (∃ τ, (typeOf T s ns' (suffix x) tv).resolve (ns.components.map rustSnake) = some τ ∧ TypeIs T S (suffix x) ns s tv τ) →
    HasComponents (items T S) (ns.components.map rustSnake) (if tv = .unit then [] else [typeOf T s ns' (suffix x) tv]) vs
  | .unit, _, _, _ => by rw [if_pos rfl]; exact .nil
  | .other hn ht, hs, _, ⟨_, h1, h2⟩ => by
    rw [if_neg hn]
    exact .cons h1 (holds_type ht hs h2) .nil
theorem holds_type {x : Dir} {ns : Namespace} {s : Schema} {tv : TypeVariant} {v : Val} {t : Tree} :
    HoldsType T S x ns s tv v t → (ns, s) ∈ S → ∀ {τ}, TypeIs T S (suffix x) ns s tv τ → HasType (items T S) τ v
  | .unit, _, _, .unit _ => .unit
  | .unit, _, _, .atlasOfBasic h _ => absurd h (suffix_ne x)
  | .scalar v h, _, _, ht => scalar_hasType h (suffix_ne x) ht v
  | .bytes _, _, _, .bytes _ => .bytes
  | .bytes _, _, _, .atlasOfBasic h _ => absurd h (suffix_ne x)
  | .string u, _, _, .string _ => .string u.valid
  | .string _, _, _, .atlasOfBasic h _ => absurd h (suffix_ne x)
  | .units n, _, _, .array _ ht => by
    cases ht with
    | unit _ =>
      refine .vec nofun (fun _ => ?_) (replicate_hasTypes _)
      rw [List.length_replicate]
      exact n.toNat_lt
    | atlasOfBasic h _ => exact absurd h (suffix_ne x)
  | .scalars l h, _, _, .array _ ht => by
    refine .vec (fun e => ?_) (fun e => ?_) ?_
    · subst e
      cases ht
    · subst e
      cases ht with
      | unit _ => cases h
    · induction l with
      | nil => exact .nil
      | cons a l ih => exact .cons (scalar_hasType h (suffix_ne x) ht a) ih
  | .array hn _ he, hs, _, .array _ ht => by
    refine .vec (fun e => by subst e; cases ht) (fun e => ?_) (holds_elems he hs ht)
    subst e
    cases ht with
    | unit _ => exact absurd rfl hn
  | .units _, _, _, .atlasOfArray h _ _ => absurd h (suffix_ne x)
  | .scalars _ _, _, _, .atlasOfArray h _ _ => absurd h (suffix_ne x)
  | .array _ _ _, _, _, .atlasOfArray h _ _ => absurd h (suffix_ne x)
  | .units _, _, _, .atlasOfScalars h _ => absurd h (suffix_ne x)
  | .scalars _ _, _, _, .atlasOfScalars h _ => absurd h (suffix_ne x)
  | .array _ _ _, _, _, .atlasOfScalars h _ => absurd h (suffix_ne x)
  | .units _, _, _, .atlasOfBasic h _ => absurd h (suffix_ne x)
  | .scalars _ _, _, _, .atlasOfBasic h _ => absurd h (suffix_ne x)
  | .array _ _ _, _, _, .atlasOfBasic h _ => absurd h (suffix_ne x)
  | .custom hr hv, hs, _, .custom hr' hd => by
    cases RefersTo.unique (hl.importNames _ hs) hr hr'
    exact holds_hasType hv hd
  | .custom _ _, _, _, .atlasOfBasic h _ => absurd h (suffix_ne x)
theorem holds_elems {x : Dir} {ns : Namespace} {s : Schema} {tv : TypeVariant} {vs : List Val} {l : List Tree} :
    HoldsElems T S x ns s tv vs l → (ns, s) ∈ S → ∀ {τ}, TypeIs T S (suffix x) ns s tv τ → HasTypes (items T S) τ vs
  | .nil, _, _, _ => .nil
  | .cons h hs', hs, _, ht => .cons (holds_type h hs ht) (holds_elems hs' hs ht)
end

/-! ### The other direction -/

omit hl hw hD in
theorem elems_units {x : Dir} {ns : Namespace} {s : Schema} : {vs : List Val} → {l : List Tree} → HoldsElems T S x ns s .unit vs l →
    vs = List.replicate vs.length .unit
  | _, _, .nil => rfl
  | _, _, .cons h h' => by
    rw [List.length_cons, List.replicate_succ, ← elems_units h']
    cases h with
    | unit => rfl
    | scalar v h => cases h

omit hl hw hD in
theorem elems_scalars {x : Dir} {ns : Namespace} {s : Schema} {tv : TypeVariant} {c : Scalar} (hc : scalarType tv = some c) : {vs : List Val} → {l : List Tree} →
    HoldsElems T S x ns s tv vs l → ∃ m : List c.Val, vs = m.map (encScalar c)
  | _, _, .nil => ⟨[], rfl⟩
  | _, _, .cons h h' => by
    obtain ⟨m, rfl⟩ := elems_scalars hc h'
    cases h with
    | scalar v h =>
      cases Option.some.inj (hc.symm.trans h)
      exact ⟨v :: m, rfl⟩
    | _ => cases hc

omit hl hw hD in
theorem vec_holds {x : Dir} {ns : Namespace} {s : Schema} {r : SourceRange} {tv : TypeVariant} {vs : List Val} {l : List Tree} (h : HoldsElems T S x ns s tv vs l)
    (hn : tv = .unit → vs.length < 2 ^ 64) : ∃ t, HoldsType T S x ns s (.array r tv) (.vec vs) t := by
  by_cases hu : tv = .unit
  · subst hu
    rw [elems_units h]
    have := HoldsType.units (T := T) (S := S) (x := x) (ns := ns) (s := s) (r := r) (UInt64.ofNat vs.length)
    rw [UInt64.toNat_ofNat_of_lt' (hn rfl)] at this
    exact ⟨_, this⟩
  · cases hc : scalarType tv with
    | none => exact ⟨_, .array hu hc h⟩
    | some c =>
      obtain ⟨m, rfl⟩ := elems_scalars hc h
      exact ⟨_, .scalars m hc⟩

omit hl hw hD in
/-- `v` holds a message, for each type expression and each declaration which `τ` is generated for. -/
def AllHold (T : CharTable) (S : Schemas) (x : Dir) (τ : RT) (v : Val) : Prop :=
  (∀ ns s tv, TypeIs T S (suffix x) ns s tv τ → ∃ t, HoldsType T S x ns s tv v t) ∧
  ∀ k ns s d, τ = .named (generatedType T ns d x) ∨ τ = .box (.named (generatedType T ns d x)) → S.Declares k ns s d → ∃ l, Holds T S x k v (.fields l)

omit hl hw hD in
theorem members_hold {x : Dir} {ns ns' : Namespace} {s : Schema} : {fs : List Field} → {ms : List (Str × Val)} →
    (∀ f ∈ fs, ∃ τ, (typeOf T s ns' (suffix x) f.type.variant).resolve (ns.components.map rustSnake) = some τ ∧ TypeIs T S (suffix x) ns s f.type.variant τ) →
    List.Forall₂ (fun (m : Str × TypeEx) (v : Str × Val) => m.1 = v.1 ∧ ∃ τ, m.2.resolve (ns.components.map rustSnake) = some τ ∧
      (AllHold T S x τ v.2 ∧ ∀ τ', τ = .option τ' → v.2 = .none ∨ ∃ w, v.2 = .some w ∧ AllHold T S x τ' w))
      (fs.map (fun f => (rustSnake f.name,
        if f.rule.mayOmit x = true then TypeEx.option (typeOf T s ns' (suffix x) f.type.variant) else typeOf T s ns' (suffix x) f.type.variant))) ms →
    ∃ l, HoldsMembers T S x ns s fs ms l
  | [], _, _, h => by cases h; exact ⟨_, .nil⟩
  | f :: fs, _, h4, h => by
    rw [List.map_cons] at h
    cases h with
    | @cons _ v _ _ h1 h2 =>
      obtain ⟨l, hl⟩ := members_hold (fun g hg => h4 g (List.mem_cons_of_mem _ hg)) h2
      obtain ⟨τ, e1, e2⟩ := h4 f List.mem_cons_self
      obtain ⟨n, v⟩ := v
      obtain ⟨rfl, τ', e3, e4, e5⟩ := h1
      cases hr : f.rule.mayOmit x with
      | false =>
        rw [hr] at e3
        simp only [Bool.false_eq_true, if_false] at e3
        cases Option.some.inj (e1.symm.trans e3)
        obtain ⟨t, ht⟩ := e4.1 _ _ _ e2
        exact ⟨_, .plain hr ht hl⟩
      | true =>
        rw [hr] at e3
        simp only [if_true, TypeEx.resolve, e1, Option.map_some] at e3
        rcases e5 _ (Option.some.inj e3).symm with rfl | ⟨w, rfl, h⟩
        · exact ⟨_, .absent hr hl⟩
        · obtain ⟨t, ht⟩ := h.1 _ _ _ e2
          exact ⟨_, .present hr ht hl⟩

omit hl hw hD in
theorem elems_hold {x : Dir} {ns : Namespace} {s : Schema} {tv : TypeVariant} {τ : RT} (ht : TypeIs T S (suffix x) ns s tv τ) : {vs : List Val} →
    (∀ v ∈ vs, AllHold T S x τ v) → ∃ l, HoldsElems T S x ns s tv vs l
  | [], _ => ⟨_, .nil⟩
  | v :: vs, h => by
    obtain ⟨l, h1⟩ := elems_hold ht fun w hw => h w (List.mem_cons_of_mem _ hw)
    obtain ⟨t, h2⟩ := (h v List.mem_cons_self).1 _ _ _ ht
    exact ⟨_, .cons h2 h1⟩

mutual
theorem hasType_holds {x : Dir} {τ : RT} {v : Val} : HasType (items T S) τ v → AllHold T S x τ v
  | .usize _ => ⟨fun _ _ _ h => (by cases h with | atlasOfScalars h _ => exact absurd h (suffix_ne x) | atlasOfBasic h _ => exact absurd h (suffix_ne x)), nofun⟩
  | .bool => ⟨fun _ _ _ h => (by cases h with | bool _ => exact ⟨_, .scalar (c := .bool) _ rfl⟩), nofun⟩
  | .f64 => ⟨fun _ _ _ h => (by cases h with | f64 _ => exact ⟨_, .scalar (c := .f64) _ rfl⟩), nofun⟩
  | .i64 => ⟨fun _ _ _ h => (by cases h with | s64 _ => exact ⟨_, .scalar (c := .s64) _ rfl⟩), nofun⟩
  | .u64 => ⟨fun _ _ _ h => (by cases h with | u64 _ => exact ⟨_, .scalar (c := .u64) _ rfl⟩), nofun⟩
  | .unit => ⟨fun _ _ _ h => (by cases h with | unit _ => exact ⟨_, .unit⟩), nofun⟩
  | @HasType.string _ b hb => ⟨fun _ _ _ h => (by cases h with | string _ => exact ⟨_, .string ⟨b, hb⟩⟩), nofun⟩
  | .bytes => ⟨fun _ _ _ h => (by cases h with | bytes _ => exact ⟨_, .bytes _⟩ | array _ h => cases h), nofun⟩
  | .vec h8 hn h => (fun hH => ⟨fun ns s tv ht => (by
      cases ht with
      | bytes _ => exact absurd rfl h8
      | array _ ht =>
        obtain ⟨l, h⟩ := elems_hold ht hH
        refine vec_holds h fun e => hn ?_
        subst e
        cases ht with
        | unit _ => rfl
        | atlasOfBasic h' _ => exact absurd h' (suffix_ne x)), nofun⟩) (hasTypes_holds (x := x) h)
  | .none => ⟨fun _ _ _ h => (by cases h), nofun⟩
  | .some _ => ⟨fun _ _ _ h => (by cases h), nofun⟩
  | .box h => (fun hH => ⟨fun _ _ _ h => (by cases h), fun k ns s d e hd => hH.2 k ns s d (.inl (by rcases e with e | e <;> cases e; rfl)) hd⟩)
      (hasType_holds (x := x) h)
  | .pair _ _ => ⟨fun _ _ _ h => (by cases h with | atlasOfArray h _ _ => exact absurd h (suffix_ne x)), nofun⟩
  | @HasType.struct _ id _ _ l he hm => by
    have hM := hasMembers_holds (x := x) hm
    have key : ∀ k ns s d, RT.named id = .named (generatedType T ns d x) ∨ RT.named id = .box (.named (generatedType T ns d x)) → S.Declares k ns s d →
        ∃ l', Holds T S x k (.struct id l) (.fields l') := by
      intro k ns s d e hd
      rcases e with e | e <;> cases e
      obtain ⟨ns', h1, h2, h3, h4⟩ := declared hw hD hd
      have he' := (h2 (suffix x)).symm.trans he
      cases hv : d.variant with
      | struct =>
        rw [declItem_struct hv] at he'
        cases he'
        obtain ⟨l, h⟩ := members_hold (fun f hf => h4 f hf (suffix x)) hM
        exact ⟨_, .struct hd hv h⟩
      | choice =>
        rw [declItem_choice hv] at he'
        cases he'
    refine ⟨fun ns s tv ht => ?_, key⟩
    cases ht with
    | custom hr hd =>
      obtain ⟨l', h⟩ := key _ _ _ _ (.inl rfl) hd
      exact ⟨_, .custom hr h⟩
  | @HasType.variant _ id _ _ n ts l he hm hc => by
    have hc := hasComponents_holds (x := x) hc
    have key : ∀ k ns s d, RT.named id = .named (generatedType T ns d x) ∨ RT.named id = .box (.named (generatedType T ns d x)) → S.Declares k ns s d →
        ∃ l', Holds T S x k (.variant id n l) (.fields l') := by
      intro k ns s d e hd
      rcases e with e | e <;> cases e
      obtain ⟨ns', h1, h2, h3, h4⟩ := declared hw hD hd
      have he' := (h2 (suffix x)).symm.trans he
      cases hv : d.variant with
      | struct =>
        rw [declItem_struct hv] at he'
        cases he'
      | choice =>
        rw [declItem_choice hv] at he'
        cases he'
        obtain ⟨f, hf, e⟩ := List.mem_map.mp hm
        cases e
        obtain ⟨τ, e1, e2⟩ := h4 f hf (suffix x)
        obtain ⟨vs, us, t, rfl, hp, hu⟩ : ∃ vs us t, l = vs ++ us ∧ HoldsPayload T S x ns s f.type.variant vs t ∧
            List.Forall₂ (fun t v => ∃ τ, TypeEx.resolve (generatedType T ns d x).1 t = some τ ∧ AllHold T S x τ v)
              (if f.rule.hasFallback x = true then [TypeEx.box (.path ⟨0, [], rustPascal T d.name (some (suffix x))⟩)] else []) us := by
          by_cases hn : f.type.variant = .unit
          · rw [if_pos hn, List.nil_append] at hc
            exact ⟨[], l, .unit, rfl, by rw [hn]; exact .unit, hc⟩
          · rw [if_neg hn] at hc
            cases hc with
            | cons h1 h2 =>
              obtain ⟨τ', g1, g2⟩ := h1
              cases Option.some.inj (e1.symm.trans g1)
              obtain ⟨t, ht⟩ := g2.1 _ _ _ e2
              exact ⟨[_], _, t, rfl, .other hn ht, h2⟩
        cases hr : f.rule.hasFallback x with
        | false =>
          rw [hr] at hu
          cases hu
          rw [List.append_nil]
          exact ⟨_, .last hd hv hf hr hp⟩
        | true =>
          rw [hr] at hu
          cases hu with
          | cons h1 h2 =>
            cases h2
            obtain ⟨τ', g1, g2⟩ := h1
            rw [resolve_self] at g1
            obtain ⟨l', h⟩ := g2.2 k ns s d (.inr (Option.some.inj g1).symm) hd
            exact ⟨_, .more hd hv hf hr hp h⟩
    refine ⟨fun ns s tv ht => ?_, key⟩
    cases ht with
    | custom hr hd =>
      obtain ⟨l', h⟩ := key _ _ _ _ (.inl rfl) hd
      exact ⟨_, .custom hr h⟩
theorem hasTypes_holds {x : Dir} {τ : RT} {l : List Val} : HasTypes (items T S) τ l → ∀ v ∈ l, AllHold T S x τ v
  | .nil, _, h => by cases h
  | .cons h h', v, hv => by
    cases hv with
    | head => exact hasType_holds h
    | tail _ hv => exact hasTypes_holds h' v hv
theorem hasMembers_holds {x : Dir} {mod : List Str} {ts : List (Str × TypeEx)} {l : List (Str × Val)} : HasMembers (items T S) mod ts l →
    List.Forall₂ (fun (m : Str × TypeEx) (v : Str × Val) => m.1 = v.1 ∧ ∃ τ, m.2.resolve mod = some τ ∧
      (AllHold T S x τ v.2 ∧ ∀ τ', τ = .option τ' → v.2 = .none ∨ ∃ w, v.2 = .some w ∧ AllHold T S x τ' w)) ts l
  | .nil => .nil
  | .cons (τ := τ) (v := v) e h h' => .cons ⟨rfl, τ, e, hasType_holds h, fun τ' e' => hasOption_holds h e'⟩ (hasMembers_holds h')
theorem hasOption_holds {x : Dir} {τ τ' : RT} {v : Val} : HasType (items T S) τ v → τ = .option τ' → v = .none ∨ ∃ w, v = .some w ∧ AllHold T S x τ' w
  | .none, _ => .inl rfl
  | .some h, e => .inr ⟨_, rfl, RT.option.inj e ▸ hasType_holds h⟩
  | .usize _, e => nomatch e
  | .bool, e => nomatch e
  | .f64, e => nomatch e
  | .i64, e => nomatch e
  | .u64, e => nomatch e
  | .unit, e => nomatch e
  | .string _, e => nomatch e
  | .bytes, e => nomatch e
  | .vec _ _ _, e => nomatch e
  | .box _, e => nomatch e
  | .pair _ _, e => nomatch e
  | .struct _ _, e => nomatch e
  | .variant _ _ _, e => nomatch e
theorem hasComponents_holds {x : Dir} {mod : List Str} {ts : List TypeEx} {l : List Val} : HasComponents (items T S) mod ts l →
    List.Forall₂ (fun t v => ∃ τ, TypeEx.resolve mod t = some τ ∧ AllHold T S x τ v) ts l
  | .nil => .nil
  | .cons (τ := τ) e h h' => .cons ⟨τ, e, hasType_holds h⟩ (hasComponents_holds h')
end

/-- The values of the types of a declaration are those which hold messages. -/
theorem hasType_iff {x : Dir} {k : List Str × Str} {ns : Namespace} {s : Schema} {d : Declaration} (hd : S.Declares k ns s d) {v : Val} :
    HasType (items T S) (.named (generatedType T ns d x)) v ↔ ∃ t, Holds T S x k v t := by
  constructor
  · intro h
    obtain ⟨l, h⟩ := (hasType_holds hl hw hD h).2 k ns s d (.inl rfl) hd
    exact ⟨_, h⟩
  · rintro ⟨t, h⟩
    exact holds_hasType hl hw hD h hd
end

end Typical.Gen

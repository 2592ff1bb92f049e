import Verif.Front.EvolutionLemmas
import Verif.Spec.Exact
import Verif.Spec.Readable
import Verif.ChangeLemmas

/-!
# Lemmas about versions of schemas whose types correspond
-/

namespace Typical

/-- A field can be looked up. -/
theorem DenotesFields.lookup_field {S : Schemas} {ns : Namespace} {s : Schema} : ∀ {fs : List Field} {Fs : Fields},
    S.DenotesFields ns s fs Fs → (fs.map (fun f => f.index)).Nodup → ∀ f ∈ fs,
    ∃ t, Fs.lookup f.index = some (f.rule, t) ∧ S.DenotesType ns s f.type.variant t
  | _, _, .nil, _, f, hf => by cases hf
  | g :: fs, _, .cons h1 h2, hn, f, hf => by
    rw [List.map_cons, List.nodup_cons] at hn
    rw [Fields.lookup]
    rcases List.mem_cons.mp hf with rfl | hf
    · rw [if_pos rfl]; exact ⟨_, rfl, h1⟩
    · rw [if_neg (fun e => hn.1 (by rw [← e]; exact List.mem_map_of_mem hf))]
      exact DenotesFields.lookup_field h2 hn.2 f hf

theorem arrayOf_sameKind {t t' : Ty} (h : t.SameKind t') : (arrayOf t).SameKind (arrayOf t') := by
  cases t with
  | unit => rw [Ty.SameKind] at h; subst h; rfl
  | scalar s => rw [Ty.SameKind] at h; subst h; rfl
  | comp c =>
    cases t' with
    | unit => exact h.elim
    | scalar _ => exact h.elim
    | comp c' => exact h

theorem arrayOf_productive {t : Ty} (h : t.Productive) : (arrayOf t).Productive := by
  cases t with
  | unit => trivial
  | scalar s => trivial
  | comp c => exact h

section
variable {S : Schemas} (hi : ∀ e ∈ S, ∀ d ∈ e.2.declarations, (d.fields.map (fun f => f.index)).Nodup) (hm : S.HaveMessages)
include hi hm

mutual
theorem Denotes.productive {k : TypeKey} {c : CTy} : S.Denotes k c → c.Productive
  | .struct h1 h2 h3 => DenotesFields.productive h3
  | .choice h1 h2 h3 => by
    refine ⟨?_, DenotesFields.productive h3⟩
    obtain ⟨f, hf, hr⟩ := hm _ h1.1 _ h1.2.1 h2
    obtain ⟨t, ht, -⟩ := DenotesFields.lookup_field h3 (hi _ h1.1 _ h1.2.1) f hf
    exact ⟨f.index, f.rule, t, ht, hr⟩
theorem DenotesFields.productive {ns : Namespace} {s : Schema} {fs : List Field} {Fs : Fields} : S.DenotesFields ns s fs Fs → Fs.Productive
  | .nil => trivial
  | .cons h1 h2 => ⟨DenotesType.productive h1, DenotesFields.productive h2⟩
theorem DenotesType.productive {ns : Namespace} {s : Schema} {v : TypeVariant} {t : Ty} : S.DenotesType ns s v t → t.Productive
  | .bool => trivial
  | .f64 => trivial
  | .s64 => trivial
  | .u64 => trivial
  | .unit => trivial
  | .bytes => trivial
  | .string => trivial
  | .array h => arrayOf_productive (DenotesType.productive h)
  | .custom _ h => Denotes.productive h
end
end

section
variable {S S' : Schemas} (hl : S.Loaded) (hl' : S'.Loaded)
  (hn : ∀ e ∈ S, (e.2.declarations.map (fun d => d.name.snakeCase)).Nodup)
  (hn' : ∀ e ∈ S', (e.2.declarations.map (fun d => d.name.snakeCase)).Nodup)
  {R : TypeKey → TypeKey → Prop} (hR : Corresponding S S' R)
include hl hl' hn hn' hR

mutual
theorem Denotes.sameKind {k k' : TypeKey} (h : R k k') {c c' : CTy} (hc' : S'.Denotes k' c') : S.Denotes k c → c.SameKind c'
  | .struct h1 h2 h3 => by
    obtain ⟨ns, s, d, ns', s', d', g1, g2, g3, g4⟩ := hR k k' h
    obtain ⟨rfl, rfl, rfl⟩ := Declares.unique hl hn h1 g1
    cases hc' with
    | struct h1' h2' h3' =>
      obtain ⟨rfl, rfl, rfl⟩ := Declares.unique hl' hn' h1' g2
      exact DenotesFields.sameKind h1.1 h1'.1 h3' g4 h3
    | choice h1' h2' h3' =>
      obtain ⟨rfl, rfl, rfl⟩ := Declares.unique hl' hn' h1' g2
      rw [h2, h2'] at g3; cases g3
  | .choice h1 h2 h3 => by
    obtain ⟨ns, s, d, ns', s', d', g1, g2, g3, g4⟩ := hR k k' h
    obtain ⟨rfl, rfl, rfl⟩ := Declares.unique hl hn h1 g1
    cases hc' with
    | choice h1' h2' h3' =>
      obtain ⟨rfl, rfl, rfl⟩ := Declares.unique hl' hn' h1' g2
      exact DenotesFields.sameKind h1.1 h1'.1 h3' g4 h3
    | struct h1' h2' h3' =>
      obtain ⟨rfl, rfl, rfl⟩ := Declares.unique hl' hn' h1' g2
      rw [h2, h2'] at g3; cases g3
theorem DenotesFields.sameKind {ns ns' : Namespace} {s s' : Schema} (hs : (ns, s) ∈ S) (hs' : (ns', s') ∈ S')
    {gs : List Field} {Gs : Fields} (hG : S'.DenotesFields ns' s' gs Gs) {fs : List Field} {Fs : Fields}
    (h : ∀ f ∈ fs, ∀ f' ∈ gs, f'.index = f.index → SameType R ns ns' s s' f.type.variant f'.type.variant) :
    S.DenotesFields ns s fs Fs → Fs.SameKind Gs
  | .nil => trivial
  | .cons (f := f) h1 h2 => by
    refine ⟨?_, DenotesFields.sameKind hs hs' hG (fun f hf => h f (List.mem_cons_of_mem _ hf)) h2⟩
    intro r t hk
    obtain ⟨g, hg, e1, e2, e3⟩ := DenotesFields.lookup_some hG hk
    exact DenotesType.sameKind hs hs' (h f List.mem_cons_self g hg e1) e3 h1
theorem DenotesType.sameKind {ns ns' : Namespace} {s s' : Schema} (hs : (ns, s) ∈ S) (hs' : (ns', s') ∈ S') {v v' : TypeVariant}
    {t t' : Ty} (h : SameType R ns ns' s s' v v') (h' : S'.DenotesType ns' s' v' t') : S.DenotesType ns s v t → t.SameKind t'
  | .bool => by cases h; cases h'; rfl
  | .f64 => by cases h; cases h'; rfl
  | .s64 => by cases h; cases h'; rfl
  | .u64 => by cases h; cases h'; rfl
  | .unit => by cases h; cases h'; rfl
  | .bytes => by cases h; cases h'; rfl
  | .string => by cases h; cases h'; rfl
  | .array h1 => by
    cases h with
    | array g =>
      cases h' with
      | array h1' => exact arrayOf_sameKind (DenotesType.sameKind hs hs' g h1' h1)
  | .custom h1 h2 => by
    cases h with
    | custom g1 g2 g3 =>
      cases h' with
      | custom h1' h2' =>
        cases RefersTo.unique (hl.importNames _ hs) h1 g1
        cases RefersTo.unique (hl'.importNames _ hs') h1' g2
        exact Denotes.sameKind g3 h2' h2
end
end

/-- Two declarations whose wire types are compatible, and whose shared fields correspond, are versions of each other. -/
theorem newVersion_of_fields {S S' : Schemas} {R : TypeKey → TypeKey → Prop} {ns ns' : Namespace} {s s' : Schema} {d d' : Declaration} {Fs Gs : Fields}
    (hv : d.variant = d'.variant)
    (ht : ∀ f ∈ d.fields, ∀ f' ∈ d'.fields, f'.index = f.index → SameType R ns ns' s s' f.type.variant f'.type.variant)
    (hF : S.DenotesFields ns s d.fields Fs) (hG : S'.DenotesFields ns' s' d'.fields Gs)
    (hi : (d.fields.map (fun f => f.index)).Nodup) (hi' : (d'.fields.map (fun f => f.index)).Nodup)
    (hnF : Fs.indices.Nodup) (hnG : Gs.indices.Nodup) (h1 : Fs.CompatShared Gs) (h2 : Fs.NewNotRequired Gs) :
    NewVersion R ns ns' s s' d d' := by
  rw [Fields.compatShared_iff hnF] at h1
  rw [Fields.newNotRequired_iff hnG] at h2
  refine .same hv (fun f hf => ?_) (fun f' hf' => ?_)
  · obtain ⟨t, hl, -⟩ := DenotesFields.lookup_field hF hi f hf
    have := h1 _ _ _ hl
    cases hk : Gs.lookup f.index with
    | none =>
      rw [hk] at this
      exact .inr ⟨this, DenotesFields.lookup_none hG hk⟩
    | some x =>
      obtain ⟨r, t'⟩ := x
      rw [hk] at this
      obtain ⟨f', hf', e1, e2, -⟩ := DenotesFields.lookup_some hG hk
      exact .inl ⟨f', hf', e1, e2 ▸ this.1, ht f hf f' hf' e1⟩
  · obtain ⟨t, hl, -⟩ := DenotesFields.lookup_field hG hi' f' hf'
    cases hk : Fs.lookup f'.index with
    | none => exact .inr (h2 _ _ _ hl hk)
    | some x =>
      obtain ⟨r, t'⟩ := x
      obtain ⟨f, hf, e1, -⟩ := DenotesFields.lookup_some hF hk
      exact .inl ⟨f, hf, e1⟩

end Typical

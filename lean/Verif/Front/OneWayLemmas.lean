import Verif.Front.ExactLemmas
import Verif.Spec.OneWay

/-!
# Lemmas about one-way compatibility of schemas
-/

namespace Typical

theorem arrayOf_canRead {t t' : Ty} (h : t.CanRead t') : (arrayOf t).CanRead (arrayOf t') := by
  cases t with
  | unit => rw [Ty.CanRead] at h; subst h; rfl
  | scalar s => rw [Ty.CanRead] at h; subst h; rfl
  | comp c =>
    cases t' with
    | unit => exact h.elim
    | scalar _ => exact h.elim
    | comp c' => exact h

theorem DenotesFields.has {S : Schemas} {ns : Namespace} {s : Schema} {fs : List Field} {Fs : Fields} (h : S.DenotesFields ns s fs Fs)
    (hn : (fs.map (fun f => f.index)).Nodup) (i : Nat) (p : Rule → Prop) : Fs.Has i p ↔ ∃ f ∈ fs, f.index = i ∧ p f.rule := by
  constructor
  · rintro ⟨r, t, h1, h2⟩
    obtain ⟨f, hf, e1, e2, -⟩ := DenotesFields.lookup_some h h1
    exact ⟨f, hf, e1, by rw [e2]; exact h2⟩
  · rintro ⟨f, hf, rfl, h2⟩
    obtain ⟨t, ht, -⟩ := DenotesFields.lookup_field h hn f hf
    exact ⟨f.rule, t, ht, h2⟩

section
variable {S S' : Schemas} (hl : S.Loaded) (hl' : S'.Loaded)
  (hn : ∀ e ∈ S, (e.2.declarations.map (fun d => d.name.snakeCase)).Nodup)
  (hn' : ∀ e ∈ S', (e.2.declarations.map (fun d => d.name.snakeCase)).Nodup)
  (hi : ∀ e ∈ S, ∀ d ∈ e.2.declarations, (d.fields.map (fun f => f.index)).Nodup)
  (hi' : ∀ e ∈ S', ∀ d ∈ e.2.declarations, (d.fields.map (fun f => f.index)).Nodup)
  {R : TypeKey → TypeKey → Prop} (hR : ReadableSchemas S S' R)
include hl hl' hn hn' hi hi' hR

mutual
theorem Denotes.canRead {k k' : TypeKey} (h : R k k') {c c' : CTy} (hc' : S'.Denotes k' c') : S.Denotes k c → c.CanRead c'
  | .struct h1 h2 h3 => by
    obtain ⟨ns, s, d, ns', s', d', g1, g2, g3, g4⟩ := hR k k' h
    obtain ⟨rfl, rfl, rfl⟩ := Declares.unique hl hn h1 g1
    unfold Insists at g3
    have a := DenotesFields.has h3 (hi _ h1.1 _ h1.2.1)
    cases hc' with
    | struct h1' h2' h3' =>
      obtain ⟨rfl, rfl, rfl⟩ := Declares.unique hl' hn' h1' g2
      have b := DenotesFields.has h3' (hi' _ h1'.1 _ h1'.2.1)
      rw [h2, h2'] at g3
      refine ⟨DenotesFields.canRead h1.1 h1'.1 h3' g4 h3, fun i hr => ?_⟩
      rw [b] at hr
      rw [a]
      obtain ⟨f', hf', rfl, hr⟩ := hr
      exact g3 f' hf' hr
    | choice h1' h2' h3' =>
      obtain ⟨rfl, rfl, rfl⟩ := Declares.unique hl' hn' h1' g2
      have b := DenotesFields.has h3' (hi' _ h1'.1 _ h1'.2.1)
      rw [h2, h2'] at g3
      refine ⟨DenotesFields.canRead h1.1 h1'.1 h3' g4 h3, ?_⟩
      obtain ⟨f, hf, f', hf', e, e1, e2⟩ := g3
      exact ⟨f.index, (a _ _).mpr ⟨f, hf, rfl, e1⟩, (b _ _).mpr ⟨f', hf', e, e2⟩⟩
  | .choice h1 h2 h3 => by
    obtain ⟨ns, s, d, ns', s', d', g1, g2, g3, g4⟩ := hR k k' h
    obtain ⟨rfl, rfl, rfl⟩ := Declares.unique hl hn h1 g1
    unfold Insists at g3
    have a := DenotesFields.has h3 (hi _ h1.1 _ h1.2.1)
    cases hc' with
    | choice h1' h2' h3' =>
      obtain ⟨rfl, rfl, rfl⟩ := Declares.unique hl' hn' h1' g2
      have b := DenotesFields.has h3' (hi' _ h1'.1 _ h1'.2.1)
      rw [h2, h2'] at g3
      refine ⟨DenotesFields.canRead h1.1 h1'.1 h3' g4 h3, fun i hr => ?_⟩
      rw [a] at hr
      rw [b]
      obtain ⟨f, hf, rfl, hr⟩ := hr
      exact g3 f hf hr
    | struct h1' h2' h3' =>
      obtain ⟨rfl, rfl, rfl⟩ := Declares.unique hl' hn' h1' g2
      have b := DenotesFields.has h3' (hi' _ h1'.1 _ h1'.2.1)
      rw [h2, h2'] at g3
      refine ⟨DenotesFields.canRead h1.1 h1'.1 h3' g4 h3, fun i hr j hj => ?_⟩
      rw [b] at hr
      rw [a] at hj
      obtain ⟨f', hf', rfl, hr⟩ := hr
      obtain ⟨f, hf, rfl, hj⟩ := hj
      exact g3 f' hf' hr f hf hj
theorem DenotesFields.canRead {ns ns' : Namespace} {s s' : Schema} (hs : (ns, s) ∈ S) (hs' : (ns', s') ∈ S')
    {gs : List Field} {Gs : Fields} (hG : S'.DenotesFields ns' s' gs Gs) {fs : List Field} {Fs : Fields}
    (h : ∀ f ∈ fs, ∀ f' ∈ gs, f'.index = f.index → SameType R ns ns' s s' f.type.variant f'.type.variant) :
    S.DenotesFields ns s fs Fs → Fs.CanReadShared Gs
  | .nil => trivial
  | .cons (f := f) h1 h2 => by
    refine ⟨?_, DenotesFields.canRead hs hs' hG (fun f hf => h f (List.mem_cons_of_mem _ hf)) h2⟩
    intro r t hk
    obtain ⟨g, hg, e1, e2, e3⟩ := DenotesFields.lookup_some hG hk
    exact DenotesType.canRead hs hs' (h f List.mem_cons_self g hg e1) e3 h1
theorem DenotesType.canRead {ns ns' : Namespace} {s s' : Schema} (hs : (ns, s) ∈ S) (hs' : (ns', s') ∈ S') {v v' : TypeVariant}
    {t t' : Ty} (h : SameType R ns ns' s s' v v') (h' : S'.DenotesType ns' s' v' t') : S.DenotesType ns s v t → t.CanRead t'
  | .bool => by cases h; cases h'; rfl
  | .f64 => by cases h; cases h'; rfl
  | .s64 => by cases h; cases h'; rfl
  | .u64 => by cases h; cases h'; rfl
  | .unit => by cases h; cases h'; rfl
  | .bytes => by cases h; cases h'; rfl
  | .string => by cases h; cases h'; rfl
  | .array h1 => by
    cases h with
    | array g =>
      cases h' with
      | array h1' => exact arrayOf_canRead (DenotesType.canRead hs hs' g h1' h1)
  | .custom h1 h2 => by
    cases h with
    | custom g1 g2 g3 =>
      cases h' with
      | custom h1' h2' =>
        cases RefersTo.unique (hl.importNames _ hs) h1 g1
        cases RefersTo.unique (hl'.importNames _ hs') h1' g2
        exact Denotes.canRead g3 h2' h2
end
end

end Typical

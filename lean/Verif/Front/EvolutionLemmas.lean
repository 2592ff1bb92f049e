import Verif.Front.DenoteLemmas
import Verif.Spec.Evolution

/-!
# Lemmas about compatible versions of schemas
-/

namespace Typical

/-- A field which has been looked up. -/
theorem DenotesFields.lookup_some {S : Schemas} {ns : Namespace} {s : Schema} : ∀ {fs : List Field} {Fs : Fields},
    S.DenotesFields ns s fs Fs → ∀ {i r t}, Fs.lookup i = some (r, t) →
    ∃ f ∈ fs, f.index = i ∧ f.rule = r ∧ S.DenotesType ns s f.type.variant t
  | _, _, .nil, _, _, _, h => by cases h
  | f :: fs, _, .cons h1 h2, i, r, t, h => by
    rw [Fields.lookup] at h
    split at h
    · injection h with h; injection h with h3 h4
      subst h3; subst h4
      exact ⟨f, List.mem_cons_self, Eq.symm ‹_›, rfl, h1⟩
    · obtain ⟨g, hg, k⟩ := DenotesFields.lookup_some h2 h
      exact ⟨g, List.mem_cons_of_mem _ hg, k⟩

/-- No field with this index. -/
theorem DenotesFields.lookup_none {S : Schemas} {ns : Namespace} {s : Schema} : ∀ {fs : List Field} {Fs : Fields},
    S.DenotesFields ns s fs Fs → ∀ {i}, Fs.lookup i = none → ∀ f ∈ fs, f.index ≠ i
  | _, _, .nil, _, _ => by simp
  | f :: fs, _, .cons h1 h2, i, h => by
    rw [Fields.lookup] at h
    split at h
    · cases h
    · intro g hg
      rcases List.mem_cons.mp hg with rfl | hg
      · exact fun e => ‹¬ _› e.symm
      · exact DenotesFields.lookup_none h2 h g hg

/-- Fields which are new are not required. -/
theorem DenotesFields.newNotRequired {S : Schemas} {ns : Namespace} {s : Schema} {fs : Fields} : ∀ {gs : List Field} {Gs : Fields},
    S.DenotesFields ns s gs Gs → (∀ g ∈ gs, fs.lookup g.index = none → g.rule ≠ .required) → fs.NewNotRequired Gs
  | _, _, .nil, _ => trivial
  | g :: gs, _, .cons h1 h2, h =>
    ⟨h g List.mem_cons_self, DenotesFields.newNotRequired h2 (fun g hg => h g (List.mem_cons_of_mem _ hg))⟩

theorem DenotesFields.single {S : Schemas} {ns : Namespace} {s : Schema} {fs : List Field} {Fs : Fields}
    (h : S.DenotesFields ns s fs Fs) {f : Field} (e : fs = [f]) : ∃ t, Fs = .cons f.index f.rule t .nil := by
  cases h with
  | nil => cases e
  | cons h1 h2 =>
    injection e with e1 e2
    subst e1
    cases h2 with
    | nil => exact ⟨_, rfl⟩
    | cons _ _ => cases e2

theorem arrayOf_compat {t t' : Ty} (h : t.Compat t') : (arrayOf t).Compat (arrayOf t') := by
  cases t with
  | unit => rw [Ty.Compat] at h; subst h; rfl
  | scalar s => rw [Ty.Compat] at h; subst h; rfl
  | comp c =>
    cases t' with
    | unit => exact h.elim
    | scalar _ => exact h.elim
    | comp c' => exact h

section
variable {S S' : Schemas} (hl : S.Loaded) (hl' : S'.Loaded)
  (hn : ∀ e ∈ S, (e.2.declarations.map (fun d => d.name.snakeCase)).Nodup)
  (hn' : ∀ e ∈ S', (e.2.declarations.map (fun d => d.name.snakeCase)).Nodup)
  (hi' : ∀ e ∈ S', ∀ d ∈ e.2.declarations, (d.fields.map (fun f => f.index)).Nodup)
  {R : TypeKey → TypeKey → Prop} (hR : CompatibleSchemas S S' R)
include hl hl' hn hn' hi' hR

mutual
theorem Denotes.compat {k k' : TypeKey} (h : R k k') {c c' : CTy} (hc' : S'.Denotes k' c') : S.Denotes k c → c.Compat c'
  | .struct h1 h2 h3 => by
    obtain ⟨ns, s, d, ns', s', d', g1, g2, g3⟩ := hR k k' h
    obtain ⟨rfl, rfl, rfl⟩ := Declares.unique hl hn h1 g1
    cases hc' with
    | struct h1' h2' h3' =>
      obtain ⟨rfl, rfl, rfl⟩ := Declares.unique hl' hn' h1' g2
      cases g3 with
      | converted f f' hv _ _ _ _ _ _ => exact absurd (h2.trans h2'.symm) hv
      | same hv hf hf' =>
        exact ⟨DenotesFields.compat h1.1 h1'.1 (hi' _ h1'.1 _ h1'.2.1) h3' hf h3, DenotesFields.newNotRequired h3' (fun g hg hg' => by
          rcases hf' g hg with ⟨f, hf, e⟩ | h
          · exact absurd e (DenotesFields.lookup_none h3 hg' f hf)
          · exact h)⟩
    | choice h1' h2' h3' =>
      obtain ⟨rfl, rfl, rfl⟩ := Declares.unique hl' hn' h1' g2
      cases g3 with
      | same hv _ _ => rw [h2, h2'] at hv; cases hv
      | converted f f' hv e1 e2 e3 e4 e5 e6 =>
        have hcomp := DenotesFields.compat h1.1 h1'.1 (hi' _ h1'.1 _ h1'.2.1) h3' (fun g hg => by
          rw [e1, List.mem_singleton] at hg; subst hg
          exact .inl ⟨f', by rw [e2]; exact List.mem_singleton_self _, e3.symm, .inl (e4.trans e5.symm), e6⟩) h3
        obtain ⟨t, a⟩ := DenotesFields.single h3 e1
        obtain ⟨t', b⟩ := DenotesFields.single h3' e2
        rw [e4] at a; rw [e5, ← e3] at b
        exact ⟨f.index, t, t', a, b, hcomp⟩
  | .choice h1 h2 h3 => by
    obtain ⟨ns, s, d, ns', s', d', g1, g2, g3⟩ := hR k k' h
    obtain ⟨rfl, rfl, rfl⟩ := Declares.unique hl hn h1 g1
    cases hc' with
    | choice h1' h2' h3' =>
      obtain ⟨rfl, rfl, rfl⟩ := Declares.unique hl' hn' h1' g2
      cases g3 with
      | converted f f' hv _ _ _ _ _ _ => exact absurd (h2.trans h2'.symm) hv
      | same hv hf hf' =>
        exact ⟨DenotesFields.compat h1.1 h1'.1 (hi' _ h1'.1 _ h1'.2.1) h3' hf h3, DenotesFields.newNotRequired h3' (fun g hg hg' => by
          rcases hf' g hg with ⟨f, hf, e⟩ | h
          · exact absurd e (DenotesFields.lookup_none h3 hg' f hf)
          · exact h)⟩
    | struct h1' h2' h3' =>
      obtain ⟨rfl, rfl, rfl⟩ := Declares.unique hl' hn' h1' g2
      cases g3 with
      | same hv _ _ => rw [h2, h2'] at hv; cases hv
      | converted f f' hv e1 e2 e3 e4 e5 e6 =>
        have hcomp := DenotesFields.compat h1.1 h1'.1 (hi' _ h1'.1 _ h1'.2.1) h3' (fun g hg => by
          rw [e1, List.mem_singleton] at hg; subst hg
          exact .inl ⟨f', by rw [e2]; exact List.mem_singleton_self _, e3.symm, .inl (e4.trans e5.symm), e6⟩) h3
        obtain ⟨t, a⟩ := DenotesFields.single h3 e1
        obtain ⟨t', b⟩ := DenotesFields.single h3' e2
        rw [e4] at a; rw [e5, ← e3] at b
        exact ⟨f.index, t, t', a, b, hcomp⟩
theorem DenotesFields.compat {ns ns' : Namespace} {s s' : Schema} (hs : (ns, s) ∈ S) (hs' : (ns', s') ∈ S')
    {gs : List Field} (hd : (gs.map (fun f => f.index)).Nodup) {Gs : Fields} (hG : S'.DenotesFields ns' s' gs Gs)
    {fs : List Field} {Fs : Fields} (h : ∀ f ∈ fs, FieldKept R ns ns' s s' gs f) :
    S.DenotesFields ns s fs Fs → Fs.CompatShared Gs
  | .nil => trivial
  | .cons (f := f) h1 h2 => by
    refine ⟨?_, DenotesFields.compat hs hs' hd hG (fun f hf => h f (List.mem_cons_of_mem _ hf)) h2⟩
    have hf := h f List.mem_cons_self
    cases hk : Gs.lookup f.index with
    | none =>
      dsimp only
      rcases hf with ⟨f', hf', e, -⟩ | ⟨h, -⟩
      · exact absurd e (DenotesFields.lookup_none hG hk f' hf')
      · exact h
    | some rt =>
      obtain ⟨r, t⟩ := rt
      dsimp only
      obtain ⟨g, hg, e1, e2, e3⟩ := DenotesFields.lookup_some hG hk
      rcases hf with ⟨f', hf', e, e4, e5⟩ | ⟨-, h⟩
      · have := eq_of_nodup_map hd hf' hg (e.trans e1.symm)
        subst this
        rw [← e2]
        exact ⟨e4, DenotesType.compat hs hs' e5 e3 h1⟩
      · exact absurd e1 (h g hg)
theorem DenotesType.compat {ns ns' : Namespace} {s s' : Schema} (hs : (ns, s) ∈ S) (hs' : (ns', s') ∈ S') {v v' : TypeVariant}
    {t t' : Ty} (h : SameType R ns ns' s s' v v') (h' : S'.DenotesType ns' s' v' t') : S.DenotesType ns s v t → t.Compat t'
  | .bool => by cases h; cases h'; rfl
  | .f64 => by cases h; cases h'; rfl
  | .s64 => by cases h; cases h'; rfl
  | .u64 => by cases h; cases h'; rfl
  | .unit => by cases h; cases h'; rfl
  | .bytes => by cases h; cases h'; rfl
  | .string => by cases h; cases h'; rfl
  | .array h1 => by
    cases h with
    | array g =>
      cases h' with
      | array h1' => exact arrayOf_compat (DenotesType.compat hs hs' g h1' h1)
  | .custom h1 h2 => by
    cases h with
    | custom g1 g2 g3 =>
      cases h' with
      | custom h1' h2' =>
        cases RefersTo.unique (hl.importNames _ hs) h1 g1
        cases RefersTo.unique (hl'.importNames _ hs') h1' g2
        exact Denotes.compat g3 h2' h2
end
end

end Typical

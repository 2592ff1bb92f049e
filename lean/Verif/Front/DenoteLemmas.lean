import Verif.Front.CycleLemmas
import Verif.Spec.Denote

/-!
# Lemmas about the wire types of declarations
-/

namespace Typical

theorem RefersTo.unique {s : Schema} {ns : Namespace} (hn : (s.imports.map (fun i => i.1.snakeCase)).Nodup)
    {i : Option Identifier} {n : Identifier} {k k' : TypeKey} (h : s.RefersTo ns i n k) (h' : s.RefersTo ns i n k') :
    k = k' := by
  cases i with
  | none => exact (show k = _ from h).trans (show k' = _ from h').symm
  | some i =>
    obtain ⟨e, he, h1, m, h2, rfl⟩ := h
    obtain ⟨e', he', h1', m', h2', rfl⟩ := h'
    have := eq_of_nodup_map hn he he' (h1.trans h1'.symm)
    subst this
    rw [h2] at h2'; cases h2'; rfl

section
variable {S : Schemas} (hl : S.Loaded) (hn : ∀ e ∈ S, (e.2.declarations.map (fun d => d.name.snakeCase)).Nodup)
include hl hn

mutual
theorem Denotes.unique {k : TypeKey} {c c' : CTy} : S.Denotes k c → S.Denotes k c' → c = c'
  | .struct h1 h2 h3, .struct h1' _ h3' => by
    obtain ⟨rfl, rfl, rfl⟩ := Declares.unique hl hn h1 h1'
    rw [DenotesFields.unique h1.1 h3 h3']
  | .choice h1 h2 h3, .choice h1' _ h3' => by
    obtain ⟨rfl, rfl, rfl⟩ := Declares.unique hl hn h1 h1'
    rw [DenotesFields.unique h1.1 h3 h3']
  | .struct h1 h2 h3, .choice h1' h2' _ => by
    obtain ⟨rfl, rfl, rfl⟩ := Declares.unique hl hn h1 h1'
    rw [h2] at h2'; cases h2'
  | .choice h1 h2 h3, .struct h1' h2' _ => by
    obtain ⟨rfl, rfl, rfl⟩ := Declares.unique hl hn h1 h1'
    rw [h2] at h2'; cases h2'
theorem DenotesFields.unique {ns : Namespace} {s : Schema} (hs : (ns, s) ∈ S) {fs : List Field} {Fs Fs' : Fields} :
    S.DenotesFields ns s fs Fs → S.DenotesFields ns s fs Fs' → Fs = Fs'
  | .nil, h => by cases h; rfl
  | .cons h1 h2, h => by
    cases h with
    | cons h1' h2' => rw [DenotesType.unique hs h1 h1', DenotesFields.unique hs h2 h2']
theorem DenotesType.unique {ns : Namespace} {s : Schema} (hs : (ns, s) ∈ S) {v : TypeVariant} {t t' : Ty} :
    S.DenotesType ns s v t → S.DenotesType ns s v t' → t = t'
  | .bool, h => by cases h; rfl
  | .f64, h => by cases h; rfl
  | .s64, h => by cases h; rfl
  | .u64, h => by cases h; rfl
  | .unit, h => by cases h; rfl
  | .bytes, h => by cases h; rfl
  | .string, h => by cases h; rfl
  | .array h1, h => by
    cases h with
    | array h1' => rw [DenotesType.unique hs h1 h1']
  | .custom h1 h2, h => by
    cases h with
    | custom h1' h2' =>
      cases RefersTo.unique (hl.importNames _ hs) h1 h1'
      rw [Denotes.unique h2 h2']
end
end

theorem arrayOf_wf {t : Ty} (h : t.WF) : (arrayOf t).WF := by
  cases t with
  | unit => simp [arrayOf, CTy.WF]
  | scalar s => simp [arrayOf, CTy.WF]
  | comp c => simpa [arrayOf, CTy.WF, Ty.WF] using h

/-- Types which mention only declared types denote. -/
theorem denotesType_exists {S : Schemas} {ns : Namespace} {s : Schema} (v : TypeVariant)
    (h : ∀ i n, v.Mentions i n → ∃ k, s.RefersTo ns i n k ∧ ∃ c, S.Denotes k c ∧ c.WF) :
    ∃ t, S.DenotesType ns s v t ∧ t.WF := by
  induction v with
  | array r v ih =>
    obtain ⟨t, h1, h2⟩ := ih (fun i n hm => h i n (.array hm))
    exact ⟨_, .array h1, by rw [Ty.WF]; exact arrayOf_wf h2⟩
  | custom i n =>
    obtain ⟨k, h1, c, h2, h3⟩ := h i n (.custom _ _)
    exact ⟨_, .custom h1 h2, by rw [Ty.WF]; exact h3⟩
  | bool => exact ⟨_, .bool, by simp [Ty.WF]⟩
  | bytes => exact ⟨_, .bytes, by simp [Ty.WF, CTy.WF]⟩
  | f64 => exact ⟨_, .f64, by simp [Ty.WF]⟩
  | s64 => exact ⟨_, .s64, by simp [Ty.WF]⟩
  | string => exact ⟨_, .string, by simp [Ty.WF, CTy.WF]⟩
  | u64 => exact ⟨_, .u64, by simp [Ty.WF]⟩
  | unit => exact ⟨_, .unit, by simp [Ty.WF]⟩

theorem denotesFields_exists {S : Schemas} {ns : Namespace} {s : Schema} (fs : List Field)
    (h : ∀ f ∈ fs, ∃ t, S.DenotesType ns s f.type.variant t ∧ t.WF) (hb : ∀ f ∈ fs, f.index ≤ 2 ^ 62 - 1) :
    ∃ Fs, S.DenotesFields ns s fs Fs ∧ Fs.WF ∧ Fs.indices = fs.map (fun f => f.index) := by
  induction fs with
  | nil => exact ⟨.nil, .nil, by simp [Fields.WF], rfl⟩
  | cons f fs ih =>
    obtain ⟨t, h1, h2⟩ := h f List.mem_cons_self
    obtain ⟨Fs, h3, h4, h5⟩ := ih (fun f hf => h f (List.mem_cons_of_mem _ hf))
      (fun f hf => hb f (List.mem_cons_of_mem _ hf))
    refine ⟨_, .cons h1 h3, ?_, ?_⟩
    · rw [Fields.WF]
      have := hb f List.mem_cons_self
      exact ⟨by omega, h2, h4⟩
    · rw [Fields.indices, h5, List.map_cons]

/-- Each declaration of well-formed schemas has a well-formed wire type. -/
theorem denotes_exists {S : Schemas} (hl : S.Loaded) (hw : S.WellFormed)
    {k : TypeKey} (ha : Acc (fun a b => S.Contains b a) k) {ns : Namespace} {s : Schema} {d : Declaration}
    (hd : S.Declares k ns s d) : ∃ c, S.Denotes k c ∧ c.WF := by
  induction ha generalizing ns s d with
  | intro k _ ih =>
    have ok := hw.declarations _ hd.1 _ hd.2.1
    obtain ⟨Fs, h1, h2, h3⟩ := denotesFields_exists (S := S) (ns := ns) (s := s) d.fields (fun f hf => by
      apply denotesType_exists
      intro i n hm
      obtain ⟨k', hr, ns', s', d', hd'⟩ := ok.types f hf i n hm
      exact ⟨k', hr, ih k' ⟨ns, s, d, hd, f, hf, i, n, hm, hr⟩ hd'⟩) ok.bound
    have hnd : Fs.indices.Nodup := by
      rw [h3]
      exact (nodup_append_iff.mp (ok.indices.nodup_iff.mpr List.nodup_range)).1
    cases hv : d.variant with
    | struct => exact ⟨_, .struct hd hv h1, by rw [CTy.WF]; exact ⟨hnd, h2⟩⟩
    | choice => exact ⟨_, .choice hd hv h1, by rw [CTy.WF]; exact ⟨hnd, h2⟩⟩

/-- In well-formed schemas the relation "contains" is well-founded. -/
theorem contains_acc {S : Schemas} (hl : S.Loaded) (hw : S.WellFormed) (k : TypeKey) :
    Acc (fun a b => S.Contains b a) k := by
  obtain ⟨hr, he⟩ := resolved_of_ok hl hw.names hw.declarations
  obtain ⟨st, h1, h2, h3⟩ := checkAll_spec hr ((typeEntries S).length + 1) (by simp) _ (fun _ h => h)
    ⟨[], [], [], []⟩
    ⟨rfl, List.nodup_nil, fun _ h => (nomatch h), trivial, fun _ h => (nomatch h), fun _ => trivial⟩ rfl
  have hE := transGen_congr he
  have hs : st.errors = [] := by
    cases hs : st.errors with
    | nil => rfl
    | cons e l =>
      obtain ⟨p, k, -, -, -, hc⟩ := h2.inv.errors e (by rw [hs]; exact List.mem_cons_self)
      rw [hE] at hc
      exact absurd hc (hw.acyclic k)
  have acc : ∀ k ∈ (typeEntries S).map Prod.fst, Acc (fun a b => S.Contains b a) k := by
    intro k hk
    have := (h2.inv.topo hs).acc (h3 k hk)
    rwa [hE] at this
  refine Acc.intro k ?_
  intro k' hk'
  have hk'' := hk'
  obtain ⟨ns, s, d, hdec, -⟩ := hk''
  have hk : k ∈ (typeEntries S).map Prod.fst := allTypes_isSome.mp (allTypes_isSome_iff.mpr ⟨ns, s, d, hdec⟩)
  exact (acc k hk).inv hk'

/-! ### Renaming -/

section
variable {S S' : Schemas} (hl : S.Loaded)
  (hn : ∀ e ∈ S, (e.2.declarations.map (fun d => d.name.snakeCase)).Nodup)
  {R : TypeKey → TypeKey → Prop} (hR : SameUpToNames S S' R)
include hl hn hR

mutual
theorem Denotes.rename {k k' : TypeKey} (h : R k k') {c : CTy} : S.Denotes k c → S'.Denotes k' c
  | .struct h1 h2 h3 => by
    obtain ⟨ns, s, d, ns', s', d', g1, g2, g3, g4⟩ := hR k k' h
    obtain ⟨rfl, rfl, rfl⟩ := Declares.unique hl hn h1 g1
    exact .struct g2 (g3.symm.trans h2) (DenotesFields.rename h1.1 g4 h3)
  | .choice h1 h2 h3 => by
    obtain ⟨ns, s, d, ns', s', d', g1, g2, g3, g4⟩ := hR k k' h
    obtain ⟨rfl, rfl, rfl⟩ := Declares.unique hl hn h1 g1
    exact .choice g2 (g3.symm.trans h2) (DenotesFields.rename h1.1 g4 h3)
theorem DenotesFields.rename {ns ns' : Namespace} {s s' : Schema} (hs : (ns, s) ∈ S) {fs fs' : List Field} {Fs : Fields}
    (h : List.Forall₂ (fun f f' => f.index = f'.index ∧ f.rule = f'.rule ∧
      SameType R ns ns' s s' f.type.variant f'.type.variant) fs fs') :
    S.DenotesFields ns s fs Fs → S'.DenotesFields ns' s' fs' Fs
  | .nil => by cases h; exact .nil
  | .cons h1 h2 => by
    cases h with
    | cons g gs =>
      rw [g.1, g.2.1]
      exact .cons (DenotesType.rename hs g.2.2 h1) (DenotesFields.rename hs gs h2)
theorem DenotesType.rename {ns ns' : Namespace} {s s' : Schema} (hs : (ns, s) ∈ S) {v v' : TypeVariant} {t : Ty}
    (h : SameType R ns ns' s s' v v') : S.DenotesType ns s v t → S'.DenotesType ns' s' v' t
  | .bool => by cases h; exact .bool
  | .f64 => by cases h; exact .f64
  | .s64 => by cases h; exact .s64
  | .u64 => by cases h; exact .u64
  | .unit => by cases h; exact .unit
  | .bytes => by cases h; exact .bytes
  | .string => by cases h; exact .string
  | .array h1 => by
    cases h with
    | array g => exact .array (DenotesType.rename hs g h1)
  | .custom h1 h2 => by
    cases h with
    | custom g1 g2 g3 =>
      cases RefersTo.unique (hl.importNames _ hs) h1 g1
      exact .custom g2 (Denotes.rename g3 h2)
end
end

/-! ### Renaming by functions -/

theorem SameType.of_rename {S : Schemas} {ρ : Renaming} (hρ : ρ.Respects) {ns : Namespace} {s : Schema}
    (v : TypeVariant)
    (h : ∀ i n, v.Mentions i n → ∃ k, s.RefersTo ns i n k ∧ ∃ ns' s' d', S.Declares k ns' s' d') :
    SameType (fun k k' => ∃ ns s d, S.Declares k ns s d ∧ k' = ((ρ.namespace_ ns).key, (ρ.typeName d.name).snakeCase))
      ns (ρ.namespace_ ns) s (ρ.schema s) v (ρ.typeVariant v) := by
  induction v with
  | array r v ih => exact .array (ih (fun i n hm => h i n (.array hm)))
  | custom i n =>
    obtain ⟨k, h1, ns', s', d', h2⟩ := h i n (.custom _ _)
    refine .custom h1 (k' := ((ρ.namespace_ ns').key, (ρ.typeName d'.name).snakeCase)) ?_ ⟨ns', s', d', h2, rfl⟩
    cases i with
    | none =>
      have hk : k = (ns.key, n.snakeCase) := h1
      have := hk.symm.trans h2.2.2
      rw [Prod.mk.injEq] at this
      show _ = _
      rw [hρ.namespace_ _ _ this.1, hρ.typeName _ _ this.2]
    | some i =>
      obtain ⟨e, he, g1, m, g2, g3⟩ := h1
      have := g3.symm.trans h2.2.2
      rw [Prod.mk.injEq] at this
      refine ⟨ρ.import_ e, List.mem_map.mpr ⟨e, he, rfl⟩, ?_, ρ.namespace_ m, ?_, ?_⟩
      · exact hρ.importName _ _ g1
      · simp only [Renaming.import_, g2, Option.map_some]
      · rw [hρ.namespace_ _ _ this.1, hρ.typeName _ _ this.2]
  | bool => exact .bool
  | bytes => exact .bytes
  | f64 => exact .f64
  | s64 => exact .s64
  | string => exact .string
  | u64 => exact .u64
  | unit => exact .unit

theorem sameUpToNames_rename {S : Schemas} (hw : S.WellFormed) {ρ : Renaming} (hρ : ρ.Respects) :
    SameUpToNames S (ρ.schemas S) (fun k k' => ∃ ns s d, S.Declares k ns s d ∧
      k' = ((ρ.namespace_ ns).key, (ρ.typeName d.name).snakeCase)) := by
  rintro k k' ⟨ns, s, d, h1, rfl⟩
  refine ⟨ns, s, d, ρ.namespace_ ns, ρ.schema s, ρ.declaration d, h1, ⟨?_, ?_, rfl⟩, rfl, ?_⟩
  · exact List.mem_map.mpr ⟨(ns, s), h1.1, rfl⟩
  · exact List.mem_map.mpr ⟨d, h1.2.1, rfl⟩
  · have ok := (hw.declarations _ h1.1 _ h1.2.1).types
    show List.Forall₂ _ d.fields (d.fields.map ρ.field)
    generalize d.fields = fs at ok
    induction fs with
    | nil => exact .nil
    | cons f fs ih =>
      exact .cons ⟨rfl, rfl, SameType.of_rename hρ _ (ok f List.mem_cons_self)⟩
        (ih (fun f hf => ok f (List.mem_cons_of_mem _ hf)))

end Typical

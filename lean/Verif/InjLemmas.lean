import Verif.CompatLemmas

/-!
# Helper lemmas: contents determine messages, and layouts determine contents

The second part uses the reader type in which asymmetric fields are made optional: it sees
everything that was written.
-/

namespace Typical
open Spec

theorem Slot.get?_inj {α : Type} {b : Bool} {s s' : Slot b α} (h : s.get? = s'.get?) : s = s' := by
  cases b
  · exact Option.some.inj h
  · exact h

theorem map_inj {α β : Type} {f : α → β} (hf : ∀ a a', f a = f a' → a = a') :
    ∀ l l' : List α, l.map f = l'.map f → l = l' := by
  intro l
  induction l with
  | nil => intro l' h; cases l' with
    | nil => rfl
    | cons => cases h
  | cons a l ih =>
    intro l' h
    cases l' with
    | nil => cases h
    | cons a' l' =>
      simp only [List.map_cons, List.cons.injEq] at h
      rw [hf _ _ h.1, ih _ h.2]

theorem Fields.treeSel_rule {d : Dir} {fb : Bool} : (fs : Fields) → fs.indices.Nodup →
    (p : fs.Sel d fb) → fs.Has (fs.treeSel p).1 (fun r => r.hasFallback d = fb)
  | .nil, _, e => e.elim
  | .cons i r t rest, _, .inl p => ⟨r, t, Fields.lookup_cons_self _ _ _ _, p.ok⟩
  | .cons i r t rest, hn, .inr p => by
    simp only [Fields.indices, List.nodup_cons] at hn
    obtain ⟨r', t', h1, h2⟩ := Fields.treeSel_rule rest hn.2 p
    simp only [Fields.treeSel]
    exact ⟨r', t', by rw [Fields.lookup_cons_of_mem hn.1 (Fields.lookup_mem h1)]; exact h1, h2⟩

theorem chain_inj {α β γ : Type} (f : α → γ) (g : β → γ) (hf : ∀ a a', f a = f a' → a = a')
    (hg : ∀ b b', g b = g b' → b = b') (hfg : ∀ a b, f a ≠ g b) (m m' : Chain α β)
    (h : m.toList f g = m'.toList f g) : m = m' := by
  induction m generalizing m' with
  | last b =>
    cases m' with
    | last b' => simp only [Chain.toList, List.cons.injEq, and_true] at h; rw [hg _ _ h]
    | more a' r' =>
      simp only [Chain.toList, List.cons.injEq] at h; exact absurd h.1.symm (hfg _ _)
  | more a r ih =>
    cases m' with
    | last b' =>
      simp only [Chain.toList, List.cons.injEq] at h; exact absurd h.1 (hfg _ _)
    | more a' r' =>
      simp only [Chain.toList, List.cons.injEq] at h; rw [hf _ _ h.1, ih _ h.2]

mutual
theorem CTy.tree_inj {d : Dir} : (c : CTy) → c.WF → (m m' : c.Msg d) → c.tree m = c.tree m' → m = m'
  | .bytes, _, m, m', h => Tree.bytes.inj h
  | .string, _, m, m', h => Tree.string.inj h
  | .units, _, m, m', h => Tree.units.inj h
  | .scalars s, _, m, m', h => eq_of_heq (Tree.scalars.inj h).2
  | .array c, hw, m, m', h => by
    simp only [CTy.WF] at hw
    simp only [CTy.tree, Tree.array.injEq] at h
    exact map_inj (CTy.tree_inj c hw) m m' h
  | .struct fs, hw, m, m', h => by
    simp only [CTy.WF] at hw
    simp only [CTy.tree, Tree.fields.injEq] at h
    exact Fields.treeStruct_inj fs hw.1 hw.2 m m' h
  | .choice fs, hw, m, m', h => by
    simp only [CTy.WF] at hw
    simp only [CTy.tree, Tree.fields.injEq] at h
    refine chain_inj _ _ (Fields.treeSel_inj fs hw.1 hw.2) (Fields.treeSel_inj fs hw.1 hw.2) ?_ m m' h
    intro a b e
    obtain ⟨r, t, h1, h2⟩ := Fields.treeSel_rule fs hw.1 a
    obtain ⟨r', t', h3, h4⟩ := Fields.treeSel_rule fs hw.1 b
    rw [e, h3] at h1
    cases h1
    rw [h2] at h4
    cases h4

theorem Ty.tree_inj {d : Dir} : (t : Ty) → t.WF → (m m' : t.Msg d) → t.tree m = t.tree m' → m = m'
  | .unit, _, _, _, _ => rfl
  | .scalar s, _, m, m', h => eq_of_heq (Tree.scalar.inj h).2
  | .comp c, hw, m, m', h => by
    simp only [Ty.WF] at hw
    simp only [Ty.tree] at h
    exact CTy.tree_inj c hw m m' h

theorem Fields.treeStruct_inj {d : Dir} : (fs : Fields) → fs.indices.Nodup → fs.WF →
    (m m' : fs.Struct d) → fs.treeStruct m = fs.treeStruct m' → m = m'
  | .nil, _, _, _, _, _ => rfl
  | .cons i r t rest, hn, hw, (s, m), (s', m'), h => by
    simp only [Fields.indices, List.nodup_cons] at hn
    simp only [Fields.WF] at hw
    simp only [Fields.treeStruct] at h
    have hne : ∀ (m : rest.Struct d) x l, rest.treeStruct m = (i, x) :: l → False := by
      intro m x l e
      have := Fields.treeStruct_mem rest m (i, x) (by rw [e]; simp)
      exact hn.1 this
    have key : s.get? = s'.get? ∧ rest.treeStruct m = rest.treeStruct m' := by
      cases h1 : s.get? with
      | none =>
        cases h2 : s'.get? with
        | none => rw [h1, h2] at h; exact ⟨rfl, h⟩
        | some v => rw [h1, h2] at h; exact (hne _ _ _ h).elim
      | some v =>
        cases h2 : s'.get? with
        | none => rw [h1, h2] at h; exact (hne _ _ _ h.symm).elim
        | some v' =>
          rw [h1, h2] at h
          simp only [List.cons_append, List.nil_append, List.cons.injEq, Prod.mk.injEq, true_and] at h
          rw [Ty.tree_inj t hw.2.1 v v' h.1]
          exact ⟨rfl, h.2⟩
    rw [Slot.get?_inj key.1, Fields.treeStruct_inj rest hn.2 hw.2.2 m m' key.2]

theorem Fields.treeSel_inj {d : Dir} {fb : Bool} : (fs : Fields) → fs.indices.Nodup → fs.WF →
    (m m' : fs.Sel d fb) → fs.treeSel m = fs.treeSel m' → m = m'
  | .nil, _, _, e, _, _ => e.elim
  | .cons i r t rest, hn, hw, .inl p, .inl p', h => by
    simp only [Fields.WF] at hw
    simp only [Fields.treeSel, Prod.mk.injEq, true_and] at h
    have := Ty.tree_inj t hw.2.1 _ _ h
    cases p; cases p'; simp only at this; subst this; rfl
  | .cons i r t rest, hn, hw, .inr p, .inr p', h => by
    simp only [Fields.indices, List.nodup_cons] at hn
    simp only [Fields.WF] at hw
    simp only [Fields.treeSel] at h
    rw [Fields.treeSel_inj rest hn.2 hw.2.2 p p' h]
  | .cons i r t rest, hn, hw, .inl p, .inr p', h => by
    simp only [Fields.indices, List.nodup_cons] at hn
    simp only [Fields.treeSel] at h
    have := Fields.treeSel_mem rest p'
    rw [← h] at this
    exact absurd this hn.1
  | .cons i r t rest, hn, hw, .inr p, .inl p', h => by
    simp only [Fields.indices, List.nodup_cons] at hn
    simp only [Fields.treeSel] at h
    have := Fields.treeSel_mem rest p
    rw [h] at this
    exact absurd this hn.1
end

/-! ### The reader which sees everything -/

def Rule.relax : Rule → Rule
  | .asymmetric => .optional
  | r => r

mutual
def CTy.relax : CTy → CTy
  | .array c => .array (CTy.relax c)
  | .struct fs => .struct (Fields.relax fs)
  | .choice fs => .choice (Fields.relax fs)
  | .bytes => .bytes
  | .string => .string
  | .units => .units
  | .scalars s => .scalars s

def Ty.relax : Ty → Ty
  | .comp c => .comp (CTy.relax c)
  | .unit => .unit
  | .scalar s => .scalar s

def Fields.relax : Fields → Fields
  | .nil => .nil
  | .cons i r t rest => .cons i r.relax (Ty.relax t) (Fields.relax rest)
end

theorem Fields.relax_indices : (fs : Fields) → fs.relax.indices = fs.indices
  | .nil => rfl
  | .cons i r t rest => by simp [Fields.relax, Fields.indices, Fields.relax_indices rest]

mutual
theorem CTy.relax_wf : (c : CTy) → c.WF → c.relax.WF
  | .bytes, _ => trivial
  | .string, _ => trivial
  | .units, _ => trivial
  | .scalars _, _ => trivial
  | .array c, h => by
    simp only [CTy.WF] at h; simp only [CTy.relax, CTy.WF]; exact CTy.relax_wf c h
  | .struct fs, h => by
    simp only [CTy.WF] at h; simp only [CTy.relax, CTy.WF, Fields.relax_indices]
    exact ⟨h.1, Fields.relax_wf fs h.2⟩
  | .choice fs, h => by
    simp only [CTy.WF] at h; simp only [CTy.relax, CTy.WF, Fields.relax_indices]
    exact ⟨h.1, Fields.relax_wf fs h.2⟩

theorem Ty.relax_wf : (t : Ty) → t.WF → t.relax.WF
  | .unit, _ => trivial
  | .scalar _, _ => trivial
  | .comp c, h => by simp only [Ty.WF] at h; simp only [Ty.relax, Ty.WF]; exact CTy.relax_wf c h

theorem Fields.relax_wf : (fs : Fields) → fs.WF → fs.relax.WF
  | .nil, _ => trivial
  | .cons i r t rest, h => by
    simp only [Fields.WF] at h
    simp only [Fields.relax, Fields.WF]
    exact ⟨h.1, Ty.relax_wf t h.2.1, Fields.relax_wf rest h.2.2⟩
end

mutual
theorem CTy.shape_relax : (c : CTy) → c.WF → c.Shape c.relax
  | .bytes, _ => rfl
  | .string, _ => rfl
  | .units, _ => rfl
  | .scalars _, _ => rfl
  | .array c, h => by
    simp only [CTy.WF] at h; simp only [CTy.relax, CTy.Shape]; exact CTy.shape_relax c h
  | .struct fs, h => by
    simp only [CTy.WF] at h; simp only [CTy.relax, CTy.Shape]; exact Fields.shape_relax fs h.1 h.2
  | .choice fs, h => by
    simp only [CTy.WF] at h; simp only [CTy.relax, CTy.Shape]; exact Fields.shape_relax fs h.1 h.2

theorem Ty.shape_relax : (t : Ty) → t.WF → t.Shape t.relax
  | .unit, _ => rfl
  | .scalar _, _ => rfl
  | .comp c, h => by simp only [Ty.WF] at h; simp only [Ty.relax, Ty.Shape]; exact CTy.shape_relax c h

theorem Fields.shape_relax : (fs : Fields) → fs.indices.Nodup → fs.WF → fs.Shape fs.relax
  | .nil, _, _ => trivial
  | .cons i r t rest, hn, hw => by
    simp only [Fields.indices, List.nodup_cons] at hn
    simp only [Fields.WF] at hw
    simp only [Fields.Shape, Fields.relax]
    constructor
    · intro r' t' hl
      simp only [Fields.lookup, if_true, Option.some.injEq, Prod.mk.injEq] at hl
      obtain ⟨rfl, rfl⟩ := hl
      exact Ty.shape_relax t hw.2.1
    · exact Fields.Shape.cons_right (Fields.shape_relax rest hn.2 hw.2.2) hn.1
end

theorem mapM_map_ex {α β γ : Type} (f : α → β) (g : β → Option γ) (k : γ → β)
    (e : ∀ a, ∃ x, g (f a) = some x ∧ k x = f a) (l : List α) :
    ∃ xs, (l.map f).mapM g = some xs ∧ xs.map k = l.map f := by
  induction l with
  | nil => exact ⟨[], rfl, rfl⟩
  | cons a l ih =>
    obtain ⟨xs, h1, h2⟩ := ih
    obtain ⟨x, h3, h4⟩ := e a
    exact ⟨x :: xs, by rw [List.map_cons, List.mapM_cons, h3, h1]; rfl, by simp [h2, h4]⟩

theorem readChain_ex {α β α' β' : Type} (f : α → Nat × Tree) (g : β → Nat × Tree)
    (f' : α' → Nat × Tree) (g' : β' → Nat × Tree)
    (variant : Nat → Tree → Option (Option (α' ⊕ β')))
    (hf : ∀ a, ∃ x, variant (f a).1 (f a).2 = some (some (.inl x)) ∧ f' x = f a)
    (hg : ∀ b, ∃ x, variant (g b).1 (g b).2 = some (some (.inr x)) ∧ g' x = g b) (m : Chain α β) :
    ∃ x, readChain variant (m.toList f g) = some x ∧ x.toList f' g' = m.toList f g := by
  induction m with
  | last b =>
    obtain ⟨x, h1, h2⟩ := hg b
    exact ⟨.last x, by simp only [Chain.toList, readChain, h1], by simp only [Chain.toList, h2]⟩
  | more a rest ih =>
    obtain ⟨y, h3, h4⟩ := ih
    obtain ⟨x, h1, h2⟩ := hf a
    exact ⟨.more x y, by simp only [Chain.toList, readChain, h1, h3, Option.map_some],
      by simp only [Chain.toList, h2, h4]⟩

theorem Slot.relax_ex {α β : Type} (r : Rule) (s : Slot (r.mayOmit .out) α) (o : Option β)
    (h : s.get?.isSome = o.isSome) : ∃ s' : Slot (r.relax.mayOmit .inn) β,
      Slot.ofOption (r.relax.mayOmit .inn) o = some s' ∧ s'.get? = o := by
  cases r
  · exact ⟨o, rfl, rfl⟩
  · exact ⟨o, rfl, rfl⟩
  · cases o with
    | none => cases h
    | some b => exact ⟨b, rfl, rfl⟩

mutual
theorem CTy.read_relax : (c : CTy) → c.WF → (m : c.Msg .out) →
    ∃ x, c.relax.read (c.tree m) = some x ∧ c.relax.tree x = c.tree m
  | .bytes, _, m => ⟨m, rfl, rfl⟩
  | .string, _, m => ⟨m, rfl, rfl⟩
  | .units, _, m => ⟨m, rfl, rfl⟩
  | .scalars s, _, m => ⟨m, by simp only [CTy.tree, CTy.relax, CTy.read, dif_pos], rfl⟩
  | .array c, hw, m => by
    simp only [CTy.WF] at hw
    obtain ⟨xs, h1, h2⟩ := mapM_map_ex c.tree c.relax.read c.relax.tree
      (CTy.read_relax c hw) m
    exact ⟨xs, h1, congrArg Tree.array h2⟩
  | .struct fs, hw, m => by
    simp only [CTy.WF] at hw
    obtain ⟨x, h1, h2⟩ := Fields.read_relaxStruct fs hw.1 hw.2 m
    exact ⟨x, h1, congrArg Tree.fields h2⟩
  | .choice fs, hw, m => by
    simp only [CTy.WF] at hw
    obtain ⟨x, h1, h2⟩ := readChain_ex fs.treeSel fs.treeSel fs.relax.treeSel fs.relax.treeSel
      fs.relax.readVariant (Fields.read_relaxLink fs hw.1 hw.2) (Fields.read_relaxLast fs hw.1 hw.2) m
    exact ⟨x, h1, congrArg Tree.fields h2⟩

theorem Ty.read_relax : (t : Ty) → t.WF → (m : t.Msg .out) →
    ∃ x, t.relax.read (t.tree m) = some x ∧ t.relax.tree x = t.tree m
  | .unit, _, m => ⟨m, rfl, rfl⟩
  | .scalar s, _, m => ⟨m, by simp only [Ty.tree, Ty.relax, Ty.read, Scalar.cast, dif_pos]; rfl, rfl⟩
  | .comp c, hw, m => by
    simp only [Ty.WF] at hw
    exact CTy.read_relax c hw m

theorem Fields.read_relaxStruct : (fs : Fields) → fs.indices.Nodup → fs.WF → (m : fs.Struct .out) →
    ∃ x, fs.relax.readStruct (fs.treeStruct m) = some x ∧ fs.relax.treeStruct x = fs.treeStruct m
  | .nil, _, _, _ => ⟨(), rfl, rfl⟩
  | .cons i r t rest, hn, hw, (slot, m) => by
    simp only [Fields.indices, List.nodup_cons] at hn
    simp only [Fields.WF] at hw
    obtain ⟨x, ih1, ih2⟩ := Fields.read_relaxStruct rest hn.2 hw.2.2 m
    have iht := Ty.read_relax t hw.2.1
    have hrest : ∀ p ∈ rest.treeStruct m, p.1 ≠ i := fun p hp e =>
      hn.1 (e ▸ Fields.treeStruct_mem rest m p hp)
    have key : (Fields.treeStruct (.cons i r t rest) (slot, m)).filter (fun p => p.1 == i) =
        (match Slot.get? slot with
         | none => []
         | some p => [(i, Ty.tree t p)]) := by
      simp only [Fields.treeStruct, List.filter_append, filter_eq_nil_of hrest, List.append_nil]
      cases Slot.get? slot <;> simp
    have key2 : rest.relax.readStruct (Fields.treeStruct (.cons i r t rest) (slot, m)) =
        rest.relax.readStruct (rest.treeStruct m) := by
      apply Fields.readStruct_congr
      intro j hj
      rw [Fields.relax_indices] at hj
      have hji : i ≠ j := fun e => hn.1 (e ▸ hj)
      simp only [Fields.treeStruct, List.filter_append]
      split <;> simp [hji]
    have main : ∃ o : Option (t.relax.Msg .inn), o.isSome = slot.get?.isSome ∧
        (∃ vs, ((match Slot.get? slot with
         | none => []
         | some p => [(i, Ty.tree t p)]) : List (Nat × Tree)).mapM (fun p => t.relax.read p.2) =
          some vs ∧ vs.head? = o) ∧ o.map t.relax.tree = slot.get?.map t.tree := by
      cases h : slot.get? with
      | none => exact ⟨none, rfl, ⟨[], rfl, rfl⟩, rfl⟩
      | some p =>
        obtain ⟨y, h1, h2⟩ := iht p
        refine ⟨some y, rfl, ⟨[y], ?_, rfl⟩, ?_⟩
        · simp only [List.mapM_cons, List.mapM_nil, h1]; rfl
        · simp only [Option.map_some, h2]
    obtain ⟨o, ho, ⟨vs, hvs, hhead⟩, htree⟩ := main
    obtain ⟨s', hs1, hs2⟩ := Slot.relax_ex r slot o ho.symm
    refine ⟨(s', x), ?_, ?_⟩
    · simp only [Fields.relax, Fields.readStruct]
      rw [key, key2, ih1, hvs]
      simp only [hhead, hs1]
    · have e : Fields.treeStruct (.cons i r.relax t.relax rest.relax) (s', x) =
        (match Slot.get? s' with
         | none => []
         | some p => [(i, Ty.tree t.relax p)]) ++ rest.relax.treeStruct x := by
        rw [Fields.treeStruct]
        congr 1
        cases Slot.get? s' <;> rfl
      refine e.trans ?_
      rw [ih2, hs2]
      simp only [Fields.treeStruct]
      congr 1
      cases h1 : slot.get? with
      | none => rw [h1] at htree; cases o <;> simp_all
      | some p => rw [h1] at htree; cases o <;> simp_all

theorem Fields.read_relaxLink : (fs : Fields) → fs.indices.Nodup → fs.WF → (p : fs.Sel .out true) →
    ∃ x, fs.relax.readVariant (fs.treeSel p).1 (fs.treeSel p).2 = some (some (.inl x)) ∧
      fs.relax.treeSel x = fs.treeSel p
  | .nil, _, _, e => e.elim
  | .cons i r t rest, hn, hw, .inl p => by
    simp only [Fields.WF] at hw
    obtain ⟨y, h1, h2⟩ := Ty.read_relax t hw.2.1 p.val
    have hr : r.relax.hasFallback .inn = true := by
      have := p.ok; cases r <;> simp_all [Rule.hasFallback, Rule.relax]
    refine ⟨.inl ⟨y, hr⟩, ?_, ?_⟩
    · simp only [Fields.relax, Fields.treeSel, Fields.readVariant, if_true, h1, dif_pos hr]
    · show (i, t.relax.tree y) = (i, t.tree p.val)
      rw [h2]
  | .cons i r t rest, hn, hw, .inr p => by
    simp only [Fields.indices, List.nodup_cons] at hn
    simp only [Fields.WF] at hw
    have hne : (rest.treeSel p).1 ≠ i := fun e => hn.1 (e ▸ Fields.treeSel_mem rest p)
    obtain ⟨y, h1, h2⟩ := Fields.read_relaxLink rest hn.2 hw.2.2 p
    refine ⟨.inr y, ?_, h2⟩
    simp only [Fields.relax, Fields.treeSel, Fields.readVariant, if_neg hne, h1]

theorem Fields.read_relaxLast : (fs : Fields) → fs.indices.Nodup → fs.WF → (p : fs.Sel .out false) →
    ∃ x, fs.relax.readVariant (fs.treeSel p).1 (fs.treeSel p).2 = some (some (.inr x)) ∧
      fs.relax.treeSel x = fs.treeSel p
  | .nil, _, _, e => e.elim
  | .cons i r t rest, hn, hw, .inl p => by
    simp only [Fields.WF] at hw
    obtain ⟨y, h1, h2⟩ := Ty.read_relax t hw.2.1 p.val
    have hr : ¬ r.relax.hasFallback .inn = true := by
      have := p.ok; cases r <;> simp_all [Rule.hasFallback, Rule.relax]
    refine ⟨.inl ⟨y, by simpa using hr⟩, ?_, ?_⟩
    · simp only [Fields.relax, Fields.treeSel, Fields.readVariant, if_true, h1, dif_neg hr]
    · show (i, t.relax.tree y) = (i, t.tree p.val)
      rw [h2]
  | .cons i r t rest, hn, hw, .inr p => by
    simp only [Fields.indices, List.nodup_cons] at hn
    simp only [Fields.WF] at hw
    have hne : (rest.treeSel p).1 ≠ i := fun e => hn.1 (e ▸ Fields.treeSel_mem rest p)
    obtain ⟨y, h1, h2⟩ := Fields.read_relaxLast rest hn.2 hw.2.2 p
    refine ⟨.inr y, ?_, h2⟩
    simp only [Fields.relax, Fields.treeSel, Fields.readVariant, if_neg hne, h1]
end

/-- Equal bytes, equal messages. -/
theorem wire_inj (c : CTy) (hw : c.WF) (m m' : c.Msg .out)
    (hm : 8 * ((c.tree m).wire false).length < 2 ^ 64)
    (h : (c.tree m).wire false = (c.tree m').wire false) : m = m' := by
  obtain ⟨x, h1, h2⟩ := CTy.read_relax c hw m
  obtain ⟨x', h1', h2'⟩ := CTy.read_relax c hw m'
  have hs := CTy.shape_relax c hw
  have d := deserialize_wire (2 ^ 64 - 1) (by omega) c.relax (CTy.relax_wf c hw) _
    (CTy.fits_tree c hw _ (CTy.relax_wf c hw) hs m) (by omega)
  have d' := deserialize_wire (2 ^ 64 - 1) (by omega) c.relax (CTy.relax_wf c hw) _
    (CTy.fits_tree c hw _ (CTy.relax_wf c hw) hs m') (by rw [← h]; omega)
  rw [h1] at d
  rw [h1'] at d'
  simp only [Agrees] at d d'
  rw [h, d'] at d
  have e : x' = x := Except.ok.inj d
  apply CTy.tree_inj c hw
  rw [← h2, ← h2', e]

end Typical

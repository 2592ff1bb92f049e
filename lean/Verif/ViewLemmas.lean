import Verif.ReadLemmas
import Verif.Spec.View

/-!
# Helper lemmas: the reader-side view of a message has the specified content
-/

namespace Typical

theorem map_map_eq2 {α β γ δ : Type} {f : α → β} {g : β → γ} {h : α → δ} {k : δ → γ}
    (e : ∀ a, g (f a) = k (h a)) (l : List α) : (l.map f).map g = (l.map h).map k := by
  rw [List.map_map, List.map_map]
  exact List.map_congr_left (fun x _ => e x)

/-- A link of a chain is converted to one with value `v`, without fallback if `b`. -/
def LinkView {α β γ : Type} (f : α → γ) (g : β → γ) (x : α ⊕ β) (v : γ) (b : Bool) : Prop :=
  match x with
  | .inl a => f a = v ∧ b = false
  | .inr a => g a = v ∧ b = true

theorem toList_view {α β α' β' γ : Type} (f : α → γ) (g : β → γ) (f' : α' → γ) (g' : β' → γ)
    (k : α → α' ⊕ β') (k' : β → β') (p : γ → Bool) (v : γ → γ)
    (hk : ∀ a, LinkView f' g' (k a) (v (f a)) (p (f a)))
    (hk' : ∀ b, g' (k' b) = v (g b)) (m : Chain α β) :
    (m.toIn k k').toList f' g' = (Spec.upTo p (m.toList f g)).map v := by
  induction m with
  | last b =>
    simp only [Chain.toIn, Chain.toList, Spec.upTo, hk']
    split <;> rfl
  | more a rest ih =>
    have h := hk a
    simp only [Chain.toIn, Chain.toList, Spec.upTo]
    cases hka : k a with
    | inl a' =>
      rw [hka] at h
      simp only [LinkView] at h
      simp only [Chain.toList, h.1, h.2, ih]
      rfl
    | inr b' =>
      rw [hka] at h
      simp only [LinkView] at h
      simp only [Chain.toList, h.1, h.2]
      rfl

theorem Fields.viewAt_cons_ne {i j : Nat} {r : Rule} {t : Ty} {rest : Fields} (h : j ≠ i) (tr : Tree) :
    (Fields.cons i r t rest).viewAt j tr = rest.viewAt j tr := by
  simp only [Fields.viewAt, if_neg h]

theorem Fields.isAsymmetric_cons_ne {i j : Nat} {r : Rule} {t : Ty} {rest : Fields} (h : j ≠ i) :
    (Fields.cons i r t rest).isAsymmetric j = rest.isAsymmetric j := by
  simp only [Fields.isAsymmetric, Fields.lookup, if_neg h]

mutual
theorem CTy.tree_toIn_view : (c : CTy) → c.WF → (m : c.Msg .out) → c.tree (c.toIn m) = c.view (c.tree m)
  | .bytes, _, _ => rfl
  | .string, _, _ => rfl
  | .units, _, _ => rfl
  | .scalars _, _, _ => rfl
  | .array c, h, m => by
    simp only [CTy.WF] at h
    exact congrArg Tree.array (map_map_eq2 (CTy.tree_toIn_view c h) m)
  | .struct fs, h, m => by
    simp only [CTy.WF] at h
    simp only [CTy.view]
    exact congrArg Tree.fields (Fields.tree_structToIn_view fs h.1 h.2 m)
  | .choice fs, h, m => by
    simp only [CTy.WF] at h
    simp only [CTy.view]
    exact congrArg Tree.fields (toList_view _ _ _ _ _ _ _ _ (Fields.tree_linkToIn_view fs h.1 h.2)
      (Fields.tree_lastToIn_view fs h.1 h.2) m)

theorem Ty.tree_toIn_view : (t : Ty) → t.WF → (m : t.Msg .out) → t.tree (t.toIn m) = t.view (t.tree m)
  | .unit, _, _ => rfl
  | .scalar _, _, _ => rfl
  | .comp c, h, m => by
    simp only [Ty.WF] at h
    exact CTy.tree_toIn_view c h m

theorem Fields.tree_structToIn_view : (fs : Fields) → fs.indices.Nodup → fs.WF → (m : fs.Struct .out) →
    fs.treeStruct (fs.structToIn m) = (fs.treeStruct m).map (fun p => (p.1, fs.viewAt p.1 p.2))
  | .nil, _, _, _ => rfl
  | .cons i r t rest, hn, h, (slot, m) => by
    simp only [Fields.WF] at h
    simp only [Fields.indices, List.nodup_cons] at hn
    have iht := Ty.tree_toIn_view t h.2.1
    simp only [Fields.structToIn, Fields.treeStruct, List.map_append]
    rw [Fields.tree_structToIn_view rest hn.2 h.2.2 m, Slot.toIn_get?]
    congr 1
    · cases slot.get? with
      | none => rfl
      | some p => simp only [Option.map_some, iht p, List.map_cons, List.map_nil, Fields.viewAt, if_true]
    · apply List.map_congr_left
      intro p hp
      have hm := Fields.treeStruct_mem rest m p hp
      have hne : p.1 ≠ i := fun e => hn.1 (e ▸ hm)
      rw [Fields.viewAt_cons_ne hne]

theorem Fields.tree_linkToIn_view : (fs : Fields) → fs.indices.Nodup → fs.WF → (p : fs.Sel .out true) →
    LinkView fs.treeSel fs.treeSel (fs.linkToIn p)
      ((fs.treeSel p).1, fs.viewAt (fs.treeSel p).1 (fs.treeSel p).2)
      (fs.isAsymmetric (fs.treeSel p).1)
  | .nil, _, _, e => e.elim
  | .cons i r t rest, hn, h, .inl p => by
    simp only [Fields.WF] at h
    have iht := Ty.tree_toIn_view t h.2.1
    simp only [Fields.linkToIn]
    have hok := p.ok
    cases r with
    | asymmetric => simp [LinkView, Rule.hasFallback, Fields.treeSel, Fields.viewAt, iht, Fields.isAsymmetric, Fields.lookup]
    | optional => simp [LinkView, Rule.hasFallback, Fields.treeSel, Fields.viewAt, iht, Fields.isAsymmetric, Fields.lookup]
    | required => cases hok
  | .cons i r t rest, hn, h, .inr p => by
    simp only [Fields.WF] at h
    simp only [Fields.indices, List.nodup_cons] at hn
    have ih := Fields.tree_linkToIn_view rest hn.2 h.2.2 p
    have hne : (rest.treeSel p).1 ≠ i := fun e => hn.1 (e ▸ Fields.treeSel_mem rest p)
    simp only [Fields.linkToIn]
    cases hl : rest.linkToIn p with
    | inl a =>
      rw [hl] at ih
      simp only [Fields.treeSel, Fields.viewAt_cons_ne hne, Fields.isAsymmetric_cons_ne hne]
      exact ih
    | inr a =>
      rw [hl] at ih
      simp only [Fields.treeSel, Fields.viewAt_cons_ne hne, Fields.isAsymmetric_cons_ne hne]
      exact ih

theorem Fields.tree_lastToIn_view : (fs : Fields) → fs.indices.Nodup → fs.WF → (p : fs.Sel .out false) →
    fs.treeSel (fs.lastToIn p) = ((fs.treeSel p).1, fs.viewAt (fs.treeSel p).1 (fs.treeSel p).2)
  | .nil, _, _, e => e.elim
  | .cons i r t rest, hn, h, .inl p => by
    simp only [Fields.WF] at h
    simp only [Fields.lastToIn, Fields.treeSel, Ty.tree_toIn_view t h.2.1, Fields.viewAt, if_true]
  | .cons i r t rest, hn, h, .inr p => by
    simp only [Fields.WF] at h
    simp only [Fields.indices, List.nodup_cons] at hn
    have hne : (rest.treeSel p).1 ≠ i := fun e => hn.1 (e ▸ Fields.treeSel_mem rest p)
    simp only [Fields.lastToIn, Fields.treeSel, Fields.viewAt_cons_ne hne]
    exact Fields.tree_lastToIn_view rest hn.2 h.2.2 p
end

end Typical

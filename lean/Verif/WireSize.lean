import Verif.ReadLemmas

/-!
# Helper: the bytes of a message, if the layout of its content is small enough
-/

namespace Typical

theorem array_wire_aux {α : Type} (e w : α → Bytes)
    (h : ∀ a, (w a).length < 2 ^ 64 → e a = w a) (l : List α)
    (hl : (l.flatMap (fun x => Spec.varintBytes (w x).length ++ w x)).length < 2 ^ 64) :
    l.flatMap (fun x => serializeVarint (UInt64.ofNat (e x).length) ++ e x) =
      l.flatMap (fun x => Spec.varintBytes (w x).length ++ w x) := by
  apply flatMap_congr'
  intro a ha
  have h1 := length_le_flatMap (fun x => Spec.varintBytes (w x).length ++ w x) ha
  simp only [List.length_append] at h1
  have h2 : (w a).length < 2 ^ 64 := by omega
  rw [h a h2, varintBytes_eq h2]

theorem chain_wire_aux {α β : Type} (f : α → Bytes) (g : β → Bytes) (f' : α → Nat × Tree)
    (g' : β → Nat × Tree)
    (hf : ∀ a, (Spec.field (f' a).1 (f' a).2.isInteger ((f' a).2.wire true)).length < 2 ^ 64 →
      f a = Spec.field (f' a).1 (f' a).2.isInteger ((f' a).2.wire true))
    (hg : ∀ b, (Spec.field (g' b).1 (g' b).2.isInteger ((g' b).2.wire true)).length < 2 ^ 64 →
      g b = Spec.field (g' b).1 (g' b).2.isInteger ((g' b).2.wire true))
    (m : Chain α β) (h : (Tree.wireFields (m.toList f' g')).length < 2 ^ 64) :
    chainBytes f g m = Tree.wireFields (m.toList f' g') := by
  induction m with
  | last b =>
    simp only [Chain.toList, Tree.wireFields, List.append_nil] at h
    simp only [chainBytes, Chain.toList, Tree.wireFields, List.append_nil]
    exact hg b h
  | more a rest ih =>
    simp only [Chain.toList, Tree.wireFields, List.length_append] at h
    simp only [chainBytes, Chain.toList, Tree.wireFields]
    rw [← hf a (by omega), ← ih (by omega)]

theorem field_wire_aux {i : Nat} (hi : i < 2 ^ 62) (t : Ty) (p : t.Msg .out) (e : Bytes)
    (h : (Spec.field i (t.tree p).isInteger ((t.tree p).wire true)).length < 2 ^ 64)
    (he : ((t.tree p).wire true).length < 2 ^ 64 → e = (t.tree p).wire true) :
    wireField i t.integerEncoded e = Spec.field i (t.tree p).isInteger ((t.tree p).wire true) := by
  rw [Spec.field, List.length_append] at h
  have h2 : ((t.tree p).wire true).length < 2 ^ 64 := by omega
  rw [he h2, wireField_eq i _ _ hi h2, Ty.isInteger_tree]

mutual
theorem CTy.wire_eq_enc (isField : Bool) : (c : CTy) → c.WF → (m : c.Msg .out) →
    ((c.tree m).wire isField).length < 2 ^ 64 → c.enc isField m = (c.tree m).wire isField
  | .bytes, _, m, _ => rfl
  | .string, _, m, _ => rfl
  | .units, _, n, _ => by
    simp only [CTy.enc, CTy.tree, Tree.wire]
    cases isField
    · exact serializeVarint_eq n
    · exact u64Field_eq n
  | .scalars s, _, m, _ => by
    simp only [CTy.enc, CTy.tree, Tree.wire]
    exact flatMap_congr' _ _ _ (fun v _ => serScalarElem_eq s v)
  | .array c, hw, m, h => by
    simp only [CTy.WF] at hw
    simp only [CTy.tree, Tree.wire, wireElems_eq] at h
    simp only [CTy.enc, CTy.tree, Tree.wire, wireElems_eq]
    have e := List.flatMap_map (f := CTy.tree c) (g := fun t => Spec.varintBytes (t.wire false).length ++ t.wire false) (l := m)
    rw [e] at h
    refine Eq.trans ?_ e.symm
    exact array_wire_aux (CTy.enc false c) (fun x => (c.tree x).wire false)
      (fun a => CTy.wire_eq_enc false c hw a) m h
  | .struct fs, hw, m, h => by
    simp only [CTy.WF] at hw
    simp only [CTy.tree, Tree.wire] at h
    simp only [CTy.enc, CTy.tree, Tree.wire]
    exact Fields.wire_eq_encStruct fs hw.2 m h
  | .choice fs, hw, m, h => by
    simp only [CTy.WF] at hw
    simp only [CTy.tree, Tree.wire] at h
    simp only [CTy.enc, CTy.tree, Tree.wire]
    exact chain_wire_aux _ _ _ _ (Fields.wire_eq_encSel fs hw.2) (Fields.wire_eq_encSel fs hw.2) m h

theorem Ty.wire_eq_enc : (t : Ty) → t.WF → (m : t.Msg .out) →
    ((t.tree m).wire true).length < 2 ^ 64 → t.enc m = (t.tree m).wire true
  | .unit, _, _, _ => rfl
  | .scalar s, _, v, _ => by
    simp only [Ty.enc, Ty.tree, Tree.wire, if_true]
    exact serScalarField_eq s v
  | .comp c, hw, m, h => by
    simp only [Ty.WF] at hw
    simp only [Ty.tree] at h
    simp only [Ty.enc, Ty.tree]
    exact CTy.wire_eq_enc true c hw m h

theorem Fields.wire_eq_encStruct : (fs : Fields) → fs.WF → (m : fs.Struct .out) →
    (Tree.wireFields (fs.treeStruct m)).length < 2 ^ 64 → fs.encStruct m = Tree.wireFields (fs.treeStruct m)
  | .nil, _, _, _ => rfl
  | .cons i r t rest, hw, (slot, m), h => by
    simp only [Fields.WF] at hw
    simp only [Fields.treeStruct, wireFields_append, List.length_append] at h
    simp only [Fields.encStruct, Fields.treeStruct]
    rw [Fields.wire_eq_encStruct rest hw.2.2 m (by omega), wireFields_append]
    congr 1
    cases hs : Slot.get? slot with
    | none => rfl
    | some p =>
      rw [hs] at h
      simp only [Tree.wireFields, List.append_nil] at h
      simp only [Tree.wireFields, List.append_nil]
      exact field_wire_aux hw.1 t p _ (by omega) (Ty.wire_eq_enc t hw.2.1 p)

theorem Fields.wire_eq_encSel {fb : Bool} : (fs : Fields) → fs.WF → (p : fs.Sel .out fb) →
    (Spec.field (fs.treeSel p).1 (fs.treeSel p).2.isInteger ((fs.treeSel p).2.wire true)).length < 2 ^ 64 →
    fs.encSel p = Spec.field (fs.treeSel p).1 (fs.treeSel p).2.isInteger ((fs.treeSel p).2.wire true)
  | .nil, _, e => e.elim
  | .cons i r t rest, hw, .inl p => by
    intro h
    simp only [Fields.WF] at hw
    simp only [Fields.treeSel] at h
    simp only [Fields.encSel, Fields.treeSel]
    exact field_wire_aux hw.1 t p.val _ h (Ty.wire_eq_enc t hw.2.1 p.val)
  | .cons i r t rest, hw, .inr p => by
    intro h
    simp only [Fields.WF] at hw
    simp only [Fields.treeSel] at h
    simp only [Fields.encSel, Fields.treeSel]
    exact Fields.wire_eq_encSel rest hw.2.2 p h
end

end Typical

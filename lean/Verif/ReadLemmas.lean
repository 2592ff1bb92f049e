import Verif.DecodeLemmas
import Verif.Spec.Compat
import Verif.Spec.View

/-!
# Helper lemmas about the specification: `read`, `tree`, `Fits`, `CanRead`
-/

namespace Typical
open Spec

theorem mapM_map_some {α β γ : Type} (f : α → β) (g : β → Option γ) (h : α → γ)
    (e : ∀ a, g (f a) = some (h a)) (l : List α) : (l.map f).mapM g = some (l.map h) := by
  induction l with
  | nil => rfl
  | cons a l ih => rw [List.map_cons, List.mapM_cons, e, ih]; rfl

/-! ### Lookup -/

theorem Fields.lookup_none {i : Nat} : {fs : Fields} → i ∉ fs.indices → fs.lookup i = none
  | .nil, _ => rfl
  | .cons j r t rest, h => by
    simp only [Fields.indices, List.mem_cons, not_or] at h
    rw [Fields.lookup, if_neg h.1, Fields.lookup_none h.2]

theorem Fields.lookup_mem {i : Nat} : {fs : Fields} → {r : Rule} → {t : Ty} →
    fs.lookup i = some (r, t) → i ∈ fs.indices
  | .nil, _, _, h => by simp [Fields.lookup] at h
  | .cons j r t rest, _, _, h => by
    rw [Fields.lookup] at h
    split at h
    · rename_i e; simp [Fields.indices, e]
    · simp [Fields.indices, Fields.lookup_mem h]

theorem Fields.lookup_of_mem {i : Nat} : {fs : Fields} → i ∈ fs.indices →
    ∃ r t, fs.lookup i = some (r, t)
  | .nil, h => by simp [Fields.indices] at h
  | .cons j r t rest, h => by
    rw [Fields.lookup]
    split
    · exact ⟨_, _, rfl⟩
    · rename_i hne
      simp only [Fields.indices, List.mem_cons] at h
      exact Fields.lookup_of_mem (h.resolve_left hne)

theorem Fields.lookup_eq_none_iff {fs : Fields} {i : Nat} :
    fs.lookup i = none ↔ i ∉ fs.indices := by
  constructor
  · intro h hm
    obtain ⟨r, t, h'⟩ := Fields.lookup_of_mem hm
    rw [h] at h'; cases h'
  · exact Fields.lookup_none

theorem Fields.WF.lt : {fs : Fields} → fs.WF → ∀ i ∈ fs.indices, i < 2 ^ 62
  | .nil, _, i, h => by simp [Fields.indices] at h
  | .cons j r t rest, hw, i, h => by
    simp only [Fields.WF] at hw
    simp only [Fields.indices, List.mem_cons] at h
    rcases h with h | h
    · rw [h]; exact hw.1
    · exact Fields.WF.lt hw.2.2 i h

theorem Fields.WF.lookup : {fs : Fields} → fs.WF → {i : Nat} → {r : Rule} → {t : Ty} →
    fs.lookup i = some (r, t) → t.WF
  | .nil, _, _, _, _, h => by simp [Fields.lookup] at h
  | .cons j r t rest, hw, i, _, _, h => by
    simp only [Fields.WF] at hw
    rw [Fields.lookup] at h
    split at h
    · cases h; exact hw.2.1
    · exact Fields.WF.lookup hw.2.2 h

/-! ### Indices of contents -/

theorem Fields.treeStruct_mem {d : Dir} : (fs : Fields) → (m : fs.Struct d) →
    ∀ p ∈ fs.treeStruct m, p.1 ∈ fs.indices
  | .nil, _, p, h => by simp [Fields.treeStruct] at h
  | .cons i r t rest, (slot, m), p, h => by
    simp only [Fields.treeStruct, List.mem_append] at h
    simp only [Fields.indices, List.mem_cons]
    rcases h with h | h
    · left
      split at h
      · cases h
      · simp at h; rw [h]
    · right; exact Fields.treeStruct_mem rest m p h

theorem Fields.treeSel_mem {d : Dir} {fb : Bool} : (fs : Fields) → (p : fs.Sel d fb) →
    (fs.treeSel p).1 ∈ fs.indices
  | .nil, e => e.elim
  | .cons i r t rest, .inl p => by simp [Fields.treeSel, Fields.indices]
  | .cons i r t rest, .inr p => by
    simp only [Fields.treeSel, Fields.indices, List.mem_cons]
    exact .inr (Fields.treeSel_mem rest p)

/-! ### Reading one's own messages -/

/-- Fields with other indices do not matter. -/
theorem Fields.readStruct_congr : (fs : Fields) → (l l' : List (Nat × Tree)) →
    (∀ i ∈ fs.indices, l.filter (fun p => p.1 == i) = l'.filter (fun p => p.1 == i)) →
    fs.readStruct l = fs.readStruct l'
  | .nil, _, _, _ => rfl
  | .cons i r t rest, l, l', h => by
    simp only [Fields.readStruct]
    rw [h i (by simp [Fields.indices]),
      Fields.readStruct_congr rest l l' (fun j hj => h j (by simp [Fields.indices, hj]))]

theorem filter_eq_nil_of {l : List (Nat × Tree)} {i : Nat} (h : ∀ p ∈ l, p.1 ≠ i) :
    l.filter (fun p => p.1 == i) = [] := by
  rw [List.filter_eq_nil_iff]
  intro p hp
  simpa using h p hp

theorem Slot.ofOption_toIn {α β : Type} (f : α → β) (r : Rule) (s : Slot (r.mayOmit .out) α) :
    Slot.ofOption (r.mayOmit .inn) (s.get?.map f) = some (Slot.toIn f r s) := by
  cases r <;> rfl

theorem readChain_toList {α β α' β' : Type} (f : α → Nat × Tree) (g : β → Nat × Tree)
    (variant : Nat → Tree → Option (Option (α' ⊕ β'))) (f' : α → α' ⊕ β') (g' : β → β')
    (hf : ∀ a, variant (f a).1 (f a).2 = some (some (f' a)))
    (hg : ∀ b, variant (g b).1 (g b).2 = some (some (.inr (g' b)))) (m : Chain α β) :
    readChain variant (m.toList f g) = some (m.toIn f' g') := by
  induction m with
  | last b =>
    simp only [Chain.toList, readChain, hg, Chain.toIn]
  | more a rest ih =>
    simp only [Chain.toList, readChain, hf, Chain.toIn]
    cases f' a with
    | inl a' => simp only [ih, Option.map_some]
    | inr b' => rfl

mutual
theorem CTy.read_tree : (c : CTy) → c.WF → (m : c.Msg .out) → c.read (c.tree m) = some (c.toIn m)
  | .bytes, _, _ => rfl
  | .string, _, _ => rfl
  | .units, _, _ => rfl
  | .scalars s, _, m => by simp only [CTy.tree, CTy.read, dif_pos, CTy.toIn]
  | .array c, hw, m => by
    simp only [CTy.WF] at hw
    simp only [CTy.tree, CTy.read, CTy.toIn]
    exact mapM_map_some c.tree c.read c.toIn (CTy.read_tree c hw) m
  | .struct fs, hw, m => by
    simp only [CTy.WF] at hw
    simp only [CTy.tree, CTy.read, CTy.toIn]
    exact Fields.read_treeStruct fs hw.1 hw.2 m
  | .choice fs, hw, m => by
    simp only [CTy.WF] at hw
    simp only [CTy.tree, CTy.read, CTy.toIn]
    exact readChain_toList _ _ _ _ _ (Fields.read_treeLink fs hw.1 hw.2)
      (Fields.read_treeLast fs hw.1 hw.2) m

theorem Ty.read_tree : (t : Ty) → t.WF → (m : t.Msg .out) → t.read (t.tree m) = some (t.toIn m)
  | .unit, _, _ => rfl
  | .scalar s, _, m => by simp only [Ty.tree, Ty.read, Scalar.cast, dif_pos, Ty.toIn]; rfl
  | .comp c, hw, m => by
    simp only [Ty.WF] at hw
    simp only [Ty.tree, Ty.read, Ty.toIn]
    exact CTy.read_tree c hw m

theorem Fields.read_treeStruct : (fs : Fields) → fs.indices.Nodup → fs.WF → (m : fs.Struct .out) →
    fs.readStruct (fs.treeStruct m) = some (fs.structToIn m)
  | .nil, _, _, _ => rfl
  | .cons i r t rest, hn, hw, (slot, m) => by
    simp only [Fields.indices, List.nodup_cons] at hn
    simp only [Fields.WF] at hw
    have ih := Fields.read_treeStruct rest hn.2 hw.2.2 m
    have iht := Ty.read_tree t hw.2.1
    have hrest : ∀ p ∈ rest.treeStruct m, p.1 ≠ i := fun p hp e =>
      hn.1 (e ▸ Fields.treeStruct_mem rest m p hp)
    have key : (Fields.treeStruct (.cons i r t rest) (slot, m)).filter (fun p => p.1 == i) =
        (match Slot.get? slot with
         | none => []
         | some p => [(i, Ty.tree t p)]) := by
      simp only [Fields.treeStruct, List.filter_append, filter_eq_nil_of hrest, List.append_nil]
      cases Slot.get? slot <;> simp
    have key2 : rest.readStruct (Fields.treeStruct (.cons i r t rest) (slot, m)) =
        rest.readStruct (rest.treeStruct m) := by
      apply Fields.readStruct_congr
      intro j hj
      have hji : i ≠ j := fun e => hn.1 (e ▸ hj)
      simp only [Fields.treeStruct, List.filter_append]
      split <;> simp [hji]
    simp only [Fields.readStruct, Fields.structToIn]
    rw [key, key2, ih]
    have hs := Slot.ofOption_toIn (Ty.toIn t) r slot
    cases h : Slot.get? slot with
    | none =>
      rw [h] at hs
      simp only [List.mapM_nil, Option.pure_def, List.head?_nil]
      rw [show Slot.ofOption (r.mayOmit .inn) (none : Option (Ty.Msg .inn t)) = _ from hs]
    | some p =>
      rw [h] at hs
      simp only [List.mapM_cons, List.mapM_nil, iht p, Option.pure_def, Option.bind_eq_bind,
        Option.bind_some, List.head?_cons]
      rw [show Slot.ofOption (r.mayOmit .inn) (some (t.toIn p)) = _ from hs]

theorem Fields.read_treeLink : (fs : Fields) → fs.indices.Nodup → fs.WF → (p : fs.Sel .out true) →
    fs.readVariant (fs.treeSel p).1 (fs.treeSel p).2 = some (some (fs.linkToIn p))
  | .nil, _, _, e => e.elim
  | .cons i r t rest, hn, hw, .inl p => by
    simp only [Fields.WF] at hw
    simp only [Fields.treeSel, Fields.readVariant, if_true, Ty.read_tree t hw.2.1,
      Fields.linkToIn]
    split <;> rfl
  | .cons i r t rest, hn, hw, .inr p => by
    simp only [Fields.indices, List.nodup_cons] at hn
    simp only [Fields.WF] at hw
    have hne : (rest.treeSel p).1 ≠ i := fun e => hn.1 (e ▸ Fields.treeSel_mem rest p)
    have ih := Fields.read_treeLink rest hn.2 hw.2.2 p
    simp only [Fields.treeSel, Fields.readVariant, if_neg hne, ih, Fields.linkToIn]
    cases rest.linkToIn p <;> rfl

theorem Fields.read_treeLast : (fs : Fields) → fs.indices.Nodup → fs.WF → (p : fs.Sel .out false) →
    fs.readVariant (fs.treeSel p).1 (fs.treeSel p).2 = some (some (.inr (fs.lastToIn p)))
  | .nil, _, _, e => e.elim
  | .cons i r t rest, hn, hw, .inl p => by
    simp only [Fields.WF] at hw
    have hr : ¬ r.hasFallback .inn = true := by
      have := p.ok; cases r <;> simp_all [Rule.hasFallback]
    simp only [Fields.treeSel, Fields.readVariant, if_true, Ty.read_tree t hw.2.1,
      Fields.lastToIn, dif_neg hr]
  | .cons i r t rest, hn, hw, .inr p => by
    simp only [Fields.indices, List.nodup_cons] at hn
    simp only [Fields.WF] at hw
    have hne : (rest.treeSel p).1 ≠ i := fun e => hn.1 (e ▸ Fields.treeSel_mem rest p)
    have ih := Fields.read_treeLast rest hn.2 hw.2.2 p
    simp only [Fields.treeSel, Fields.readVariant, if_neg hne, ih, Fields.lastToIn]
end

/-! ### Shape and Fits -/

theorem Fields.fitsAt_iff : {fs : Fields} → fs.indices.Nodup → {j : Nat} → {tr : Tree} →
    (fs.FitsAt j tr ↔ ∀ r t, fs.lookup j = some (r, t) → t.Fits tr)
  | .nil, _, _, _ => by simp [Fields.FitsAt, Fields.lookup]
  | .cons i r t rest, hn, j, tr => by
    simp only [Fields.indices, List.nodup_cons] at hn
    rw [Fields.FitsAt, Fields.lookup, Fields.fitsAt_iff hn.2]
    by_cases h : j = i
    · simp only [h, if_true, true_implies, Fields.lookup_none hn.1]
      constructor
      · rintro ⟨h1, _⟩ r' t' e; cases e; exact h1
      · intro h1; exact ⟨h1 r t rfl, fun _ _ e => by cases e⟩
    · simp only [h, if_false, false_implies, true_and]

theorem chain_mem_toList {α β γ : Type} (f : α → γ) (g : β → γ) (P : γ → Prop)
    (hf : ∀ a, P (f a)) (hg : ∀ b, P (g b)) (m : Chain α β) : ∀ x ∈ m.toList f g, P x := by
  induction m with
  | last b => intro x hx; simp [Chain.toList] at hx; rw [hx]; exact hg b
  | more a rest ih =>
    intro x hx
    simp only [Chain.toList, List.mem_cons] at hx
    rcases hx with hx | hx
    · rw [hx]; exact hf a
    · exact ih x hx

mutual
theorem CTy.fits_tree {d : Dir} : (w : CTy) → w.WF → (r : CTy) → r.WF → w.Shape r →
    (m : w.Msg d) → r.Fits (w.tree m)
  | .bytes, _, r, _, h, m => by simp only [CTy.Shape] at h; subst h; trivial
  | .string, _, r, _, h, m => by simp only [CTy.Shape] at h; subst h; trivial
  | .units, _, r, _, h, m => by simp only [CTy.Shape] at h; subst h; trivial
  | .scalars s, _, r, _, h, m => by
    simp only [CTy.Shape] at h; subst h; simp only [CTy.tree, CTy.Fits]
  | .array c, hw, r, hr, h, m => by
    cases r <;> simp only [CTy.Shape] at h
    rename_i c'
    simp only [CTy.WF] at hw hr
    simp only [CTy.tree, CTy.Fits]
    intro t ht
    obtain ⟨x, _, rfl⟩ := List.mem_map.1 ht
    exact CTy.fits_tree c hw c' hr h x
  | .struct fs, hw, r, hr, h, m => by
    simp only [CTy.WF] at hw
    cases r <;> simp only [CTy.Shape] at h <;> rename_i gs <;> simp only [CTy.WF] at hr <;>
      simp only [CTy.tree, CTy.Fits] <;> intro p hp <;>
      exact ⟨hw.2.lt _ (Fields.treeStruct_mem fs m p hp),
        Fields.fits_treeStruct fs hw.2 gs hr.1 hr.2 h m p hp⟩
  | .choice fs, hw, r, hr, h, m => by
    simp only [CTy.WF] at hw
    cases r <;> simp only [CTy.Shape] at h <;> rename_i gs <;> simp only [CTy.WF] at hr <;>
      simp only [CTy.tree, CTy.Fits] <;>
      exact chain_mem_toList _ _ _
        (fun a => ⟨hw.2.lt _ (Fields.treeSel_mem fs a), Fields.fits_treeSel fs hw.2 gs hr.1 hr.2 h a⟩)
        (fun a => ⟨hw.2.lt _ (Fields.treeSel_mem fs a), Fields.fits_treeSel fs hw.2 gs hr.1 hr.2 h a⟩)
        m

theorem Ty.fits_tree {d : Dir} : (w : Ty) → w.WF → (r : Ty) → r.WF → w.Shape r →
    (m : w.Msg d) → r.Fits (w.tree m)
  | .unit, _, r, _, h, m => by simp only [Ty.Shape] at h; subst h; trivial
  | .scalar s, _, r, _, h, m => by
    simp only [Ty.Shape] at h; subst h; simp only [Ty.tree, Ty.Fits]
  | .comp c, hw, r, hr, h, m => by
    cases r <;> simp only [Ty.Shape] at h
    simp only [Ty.WF] at hw hr
    simp only [Ty.tree, Ty.Fits]
    exact CTy.fits_tree c hw _ hr h m

theorem Fields.fits_treeStruct {d : Dir} : (fs : Fields) → fs.WF → (gs : Fields) →
    gs.indices.Nodup → gs.WF → fs.Shape gs → (m : fs.Struct d) →
    ∀ p ∈ fs.treeStruct m, gs.FitsAt p.1 p.2
  | .nil, _, _, _, _, _, _, p, hp => by simp [Fields.treeStruct] at hp
  | .cons i r t rest, hw, gs, hn, hg, h, (slot, m), p, hp => by
    simp only [Fields.WF] at hw
    simp only [Fields.Shape] at h
    simp only [Fields.treeStruct, List.mem_append] at hp
    rcases hp with hp | hp
    · split at hp
      · cases hp
      · rename_i v _
        simp only [List.mem_singleton] at hp
        subst hp
        rw [Fields.fitsAt_iff hn]
        intro r' t' hl
        exact Ty.fits_tree t hw.2.1 t' (hg.lookup hl) (h.1 r' t' hl) v
    · exact Fields.fits_treeStruct rest hw.2.2 gs hn hg h.2 m p hp

theorem Fields.fits_treeSel {d : Dir} {fb : Bool} : (fs : Fields) → fs.WF → (gs : Fields) →
    gs.indices.Nodup → gs.WF → fs.Shape gs → (m : fs.Sel d fb) →
    gs.FitsAt (fs.treeSel m).1 (fs.treeSel m).2
  | .nil, _, _, _, _, _, e => e.elim
  | .cons i r t rest, hw, gs, hn, hg, h, .inl p => by
    simp only [Fields.WF] at hw
    simp only [Fields.Shape] at h
    simp only [Fields.treeSel]
    rw [Fields.fitsAt_iff hn]
    intro r' t' hl
    exact Ty.fits_tree t hw.2.1 t' (hg.lookup hl) (h.1 r' t' hl) p.val
  | .cons i r t rest, hw, gs, hn, hg, h, .inr p => by
    simp only [Fields.WF] at hw
    simp only [Fields.Shape] at h
    simp only [Fields.treeSel]
    exact Fields.fits_treeSel rest hw.2.2 gs hn hg h.2 p
end

/-- Adding a field which the left side does not have does not affect `Shape`. -/
theorem Fields.Shape.cons_right : {fs gs : Fields} → fs.Shape gs → {i : Nat} → {r : Rule} → {t : Ty} →
    i ∉ fs.indices → fs.Shape (.cons i r t gs)
  | .nil, _, _, _, _, _, _ => trivial
  | .cons j r' t' rest, gs, h, i, r, t, hi => by
    simp only [Fields.indices, List.mem_cons, not_or] at hi
    simp only [Fields.Shape] at h ⊢
    refine ⟨?_, Fields.Shape.cons_right h.2 hi.2⟩
    intro r'' t'' hl
    rw [Fields.lookup, if_neg (Ne.symm hi.1)] at hl
    exact h.1 r'' t'' hl

mutual
theorem CTy.shape_refl : (c : CTy) → c.WF → c.Shape c
  | .bytes, _ => rfl
  | .string, _ => rfl
  | .units, _ => rfl
  | .scalars _, _ => rfl
  | .array c, h => by simp only [CTy.WF] at h; simp only [CTy.Shape]; exact CTy.shape_refl c h
  | .struct fs, h => by
    simp only [CTy.WF] at h; simp only [CTy.Shape]; exact Fields.shape_refl fs h.1 h.2
  | .choice fs, h => by
    simp only [CTy.WF] at h; simp only [CTy.Shape]; exact Fields.shape_refl fs h.1 h.2

theorem Ty.shape_refl : (t : Ty) → t.WF → t.Shape t
  | .unit, _ => rfl
  | .scalar _, _ => rfl
  | .comp c, h => by simp only [Ty.WF] at h; simp only [Ty.Shape]; exact CTy.shape_refl c h

theorem Fields.shape_refl : (fs : Fields) → fs.indices.Nodup → fs.WF → fs.Shape fs
  | .nil, _, _ => trivial
  | .cons i r t rest, hn, hw => by
    simp only [Fields.indices, List.nodup_cons] at hn
    simp only [Fields.WF] at hw
    simp only [Fields.Shape]
    constructor
    · intro r' t' hl
      simp only [Fields.lookup, if_true, Option.some.injEq, Prod.mk.injEq] at hl
      obtain ⟨rfl, rfl⟩ := hl
      exact Ty.shape_refl t hw.2.1
    · exact Fields.Shape.cons_right (Fields.shape_refl rest hn.2 hw.2.2) hn.1
end

/-- Serialising gives the specified layout of the content. -/
theorem serialize_wire (c : CTy) (hw : c.WF) (m : c.Msg .out) (h : size c m < 2 ^ 64) :
    serialize c m = some ((c.tree m).wire false) := by
  rw [serialize_eq, CTy.enc_eq_wire false c hw m (by rw [← size_eq]; exact h)]

theorem size_wire (c : CTy) (hw : c.WF) (m : c.Msg .out) (h : size c m < 2 ^ 64) :
    ((c.tree m).wire false).length = size c m := by
  rw [size_eq, CTy.enc_eq_wire false c hw m (by rw [← size_eq]; exact h)]

end Typical

namespace Typical

/-! ### The content of the reader-side view -/

theorem Slot.toIn_get? {α β : Type} (f : α → β) (r : Rule) (s : Slot (r.mayOmit .out) α) :
    (Slot.toIn f r s).get? = s.get?.map f := by
  cases r <;> rfl

theorem toList_toIn {α β α' β' γ : Type} (f : α → γ) (g : β → γ) (f' : α' → γ) (g' : β' → γ)
    (k : α → α' ⊕ β') (k' : β → β') (hk : ∀ a, ∃ a', k a = .inl a' ∧ f' a' = f a)
    (hk' : ∀ b, g' (k' b) = g b) (m : Chain α β) :
    (m.toIn k k').toList f' g' = m.toList f g := by
  induction m with
  | last b => simp only [Chain.toIn, Chain.toList, hk']
  | more a rest ih =>
    obtain ⟨a', h1, h2⟩ := hk a
    simp only [Chain.toIn, h1, Chain.toList, h2, ih]

theorem map_map_eq {α β γ : Type} {f : α → β} {g : β → γ} {h : α → γ}
    (e : ∀ a, g (f a) = h a) (l : List α) : (l.map f).map g = l.map h := by
  rw [List.map_map]
  exact List.map_congr_left (fun x _ => e x)

mutual
theorem CTy.tree_toIn : (c : CTy) → c.NoAsymChoice → (m : c.Msg .out) → c.tree (c.toIn m) = c.tree m
  | .bytes, _, _ => rfl
  | .string, _, _ => rfl
  | .units, _, _ => rfl
  | .scalars _, _, _ => rfl
  | .array c, h, m => by
    simp only [CTy.NoAsymChoice] at h
    have ih := CTy.tree_toIn c h
    exact congrArg Tree.array (map_map_eq ih m)
  | .struct fs, h, m => by
    simp only [CTy.NoAsymChoice] at h
    exact congrArg Tree.fields (Fields.tree_structToIn fs h m)
  | .choice fs, h, m => by
    simp only [CTy.NoAsymChoice] at h
    exact congrArg Tree.fields (toList_toIn _ _ _ _ _ _ (Fields.tree_linkToIn fs h.1 h.2)
      (Fields.tree_lastToIn fs h.2) m)

theorem Ty.tree_toIn : (t : Ty) → t.NoAsymChoice → (m : t.Msg .out) → t.tree (t.toIn m) = t.tree m
  | .unit, _, _ => rfl
  | .scalar _, _, _ => rfl
  | .comp c, h, m => by
    simp only [Ty.NoAsymChoice] at h
    exact CTy.tree_toIn c h m

theorem Fields.tree_structToIn : (fs : Fields) → fs.NoAsymChoice → (m : fs.Struct .out) →
    fs.treeStruct (fs.structToIn m) = fs.treeStruct m
  | .nil, _, _ => rfl
  | .cons i r t rest, h, (slot, m) => by
    simp only [Fields.NoAsymChoice] at h
    have iht := Ty.tree_toIn t h.1
    simp only [Fields.structToIn, Fields.treeStruct]
    rw [Fields.tree_structToIn rest h.2 m, Slot.toIn_get?]
    congr 1
    cases slot.get? with
    | none => rfl
    | some p => simp only [Option.map_some, iht p]

theorem Fields.tree_linkToIn : (fs : Fields) → (∀ i, ¬ fs.HasRuleAt i .asymmetric) →
    fs.NoAsymChoice → (p : fs.Sel .out true) →
    ∃ a, fs.linkToIn p = .inl a ∧ fs.treeSel a = fs.treeSel p
  | .nil, _, _, e => e.elim
  | .cons i r t rest, hr, h, .inl p => by
    simp only [Fields.NoAsymChoice] at h
    have hfb : r.hasFallback .inn = true := by
      have h1 := p.ok
      have h2 := hr i
      simp only [Fields.HasRuleAt, true_and, not_or] at h2
      cases r
      · exact absurd rfl h2.1
      · rfl
      · cases h1
    refine ⟨.inl ⟨t.toIn p.val, hfb⟩, by simp only [Fields.linkToIn, dif_pos hfb], ?_⟩
    simp only [Fields.treeSel, Ty.tree_toIn t h.1]
  | .cons i r t rest, hr, h, .inr p => by
    simp only [Fields.NoAsymChoice] at h
    obtain ⟨a, h1, h2⟩ := Fields.tree_linkToIn rest
      (fun j hj => hr j (by simp only [Fields.HasRuleAt]; exact .inr hj)) h.2 p
    refine ⟨.inr a, by simp only [Fields.linkToIn, h1], ?_⟩
    simpa only [Fields.treeSel] using h2

theorem Fields.tree_lastToIn : (fs : Fields) →
    fs.NoAsymChoice → (p : fs.Sel .out false) → fs.treeSel (fs.lastToIn p) = fs.treeSel p
  | .nil, _, e => e.elim
  | .cons i r t rest, h, .inl p => by
    simp only [Fields.NoAsymChoice] at h
    simp only [Fields.lastToIn, Fields.treeSel, Ty.tree_toIn t h.1]
  | .cons i r t rest, h, .inr p => by
    simp only [Fields.NoAsymChoice] at h
    simp only [Fields.lastToIn, Fields.treeSel]
    exact Fields.tree_lastToIn rest h.2 p
end

/-! ### Members of a struct that was read -/

theorem lookup_eq_head? (l : List (Nat × Tree)) (i : Nat) :
    (l.filter (fun p => p.1 == i)).head?.map Prod.snd = l.lookup i := by
  induction l with
  | nil => rfl
  | cons p l ih =>
    obtain ⟨j, t⟩ := p
    by_cases h : j = i
    · simp [h, List.lookup]
    · have h' : (i == j) = false := by simpa using fun e => h e.symm
      rw [List.filter_cons_of_neg (by simpa using h)]
      simp only [List.lookup, h']
      exact ih

theorem mapM_head? {α β : Type} {f : α → Option β} {l : List α} {vs : List β}
    (h : l.mapM f = some vs) : vs.head? = l.head?.bind f := by
  cases l with
  | nil => cases h; rfl
  | cons a l =>
    rw [List.mapM_cons] at h
    cases hf : f a with
    | none => rw [hf] at h; cases h
    | some b =>
      rw [hf] at h
      cases hl : l.mapM f with
      | none => rw [hl] at h; cases h
      | some bs => rw [hl] at h; cases h; simp [hf]

theorem Slot.ofOption_get? {α : Type} {b : Bool} {o : Option α} {s : Slot b α}
    (h : Slot.ofOption b o = some s) : s.get? = o := by
  cases b
  · exact h.symm
  · cases h; rfl

theorem lookup_append_none (l l' : List (Nat × Tree)) (i : Nat) (h : ∀ p ∈ l, p.1 ≠ i) :
    (l ++ l').lookup i = l'.lookup i := by
  induction l with
  | nil => rfl
  | cons p l ih =>
    obtain ⟨j, t⟩ := p
    have hj : j ≠ i := h (j, t) (by simp)
    have h' : (i == j) = false := by simpa using fun e => hj e.symm
    simp only [List.cons_append, List.lookup, h']
    exact ih (fun p hp => h p (by simp [hp]))

theorem lookup_none_of (l : List (Nat × Tree)) (i : Nat) (h : ∀ p ∈ l, p.1 ≠ i) :
    l.lookup i = none := by
  have := lookup_append_none l [] i h
  simpa using this

/-- Each member of a struct is what its type reads in the first field with its index. -/
theorem Fields.readStruct_lookup : (gs : Fields) → gs.indices.Nodup → (l : List (Nat × Tree)) →
    (m : gs.Struct .inn) → gs.readStruct l = some m → (i : Nat) →
    (gs.treeStruct m).lookup i =
      match gs.lookup i, l.lookup i with
      | some (_, t), some tr => (t.read tr).map t.tree
      | _, _ => none
  | .nil, _, _, _, _, _ => rfl
  | .cons j r t rest, hn, l, (s, m), h, i => by
    simp only [Fields.indices, List.nodup_cons] at hn
    simp only [Fields.readStruct] at h
    cases h1 : (l.filter (fun p => p.1 == j)).mapM (fun p => t.read p.2) with
    | none => rw [h1] at h; cases h
    | some vs =>
      rw [h1] at h
      simp only at h
      cases h2 : Slot.ofOption (r.mayOmit .inn) vs.head? with
      | none => rw [h2] at h; cases h
      | some s' =>
        cases h3 : rest.readStruct l with
        | none => rw [h2, h3] at h; cases h
        | some m' =>
          rw [h2, h3] at h
          cases h
          have hs := Slot.ofOption_get? h2
          rw [mapM_head? h1] at hs
          simp only [Fields.treeStruct, Fields.lookup]
          by_cases hij : i = j
          · subst hij
            simp only [if_true]
            have hl := lookup_eq_head? l i
            cases hh : (l.filter (fun p => p.1 == i)).head? with
            | none =>
              rw [hh] at hl hs
              simp only [Option.map_none] at hl
              simp only [Option.bind_none] at hs
              rw [hs, ← hl]
              simp only [List.nil_append]
              exact lookup_none_of _ _ (fun p hp e => hn.1 (e ▸ Fields.treeStruct_mem rest m p hp))
            | some p =>
              rw [hh] at hl hs
              simp only [Option.map_some] at hl
              simp only [Option.bind_some] at hs
              rw [hs, ← hl]
              simp only
              cases hr : t.read p.2 with
              | none =>
                rw [hr] at hs
                have hp := List.mem_of_mem_head? (Option.mem_def.2 hh)
                exfalso
                have := mapM_head? h1
                rw [hh] at this
                simp only [Option.bind_some, hr] at this
                cases vs with
                | cons v vs => cases this
                | nil =>
                  cases hlst : l.filter (fun p => p.1 == i) with
                  | nil => rw [hlst] at hp; cases hp
                  | cons q qs =>
                    rw [hlst, List.mapM_cons] at h1
                    rw [hlst] at hh
                    simp only [List.head?_cons, Option.some.injEq] at hh
                    subst hh
                    rw [hr] at h1
                    cases h1
              | some v => simp
          · simp only [if_neg hij]
            rw [lookup_append_none _ _ i (by
              intro p hp e
              split at hp
              · cases hp
              · simp only [List.mem_singleton] at hp; rw [hp] at e; exact hij e.symm)]
            exact Fields.readStruct_lookup rest hn.2 l m h3 i

end Typical

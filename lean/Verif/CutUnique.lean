import Verif.CutLemmas
import Verif.ReadLemmas

/-!
# Helper lemmas: a cut shows only one content; writers know their own fields
-/

namespace Typical
open Spec

theorem split_unique {α : Type} (W : α → Bytes) {b b' a a' : List α} {x y : α} {q q' : Bytes}
    (h : b ++ x :: a = b' ++ y :: a') (hw : b.flatMap W ++ q = b'.flatMap W ++ q') (hq : q.length < (W x).length)
    (hq' : q'.length < (W y).length) : b = b' ∧ x = y ∧ q = q' := by
  rcases List.append_eq_append_iff.mp h with ⟨k, h1, h2⟩ | ⟨k, h1, h2⟩
  · cases k with
    | nil =>
      simp only [List.append_nil] at h1
      simp only [List.nil_append, List.cons.injEq] at h2
      subst h1
      exact ⟨rfl, h2.1, List.append_cancel_left hw⟩
    | cons z k =>
      simp only [List.cons_append, List.cons.injEq] at h2
      obtain ⟨rfl, -⟩ := h2
      subst h1
      rw [List.flatMap_append, List.append_assoc] at hw
      have := List.append_cancel_left hw
      rw [this] at hq
      simp only [List.flatMap_cons, List.length_append] at hq
      omega
  · cases k with
    | nil =>
      simp only [List.append_nil] at h1
      simp only [List.nil_append, List.cons.injEq] at h2
      subst h1
      exact ⟨rfl, h2.1.symm, List.append_cancel_left hw⟩
    | cons z k =>
      simp only [List.cons_append, List.cons.injEq] at h2
      obtain ⟨rfl, -⟩ := h2
      subst h1
      rw [List.flatMap_append, List.append_assoc] at hw
      have := List.append_cancel_left hw
      rw [← this] at hq'
      simp only [List.flatMap_cons, List.length_append] at hq'
      omega

theorem Tree.wireFields_cons_length (b a : List (Nat × Tree)) (i : Nat) (t : Tree) :
    (Tree.wireFields b).length + (Spec.header i (t.wire true).length t.isInteger).length + (t.wire true).length ≤
      (Tree.wireFields (b ++ (i, t) :: a)).length := by
  rw [wireFields_eq, wireFields_eq]
  simp only [List.flatMap_append, List.flatMap_cons, List.length_append, Spec.field]
  omega

theorem Tree.wireElems_cons_length (b a : List Tree) (t : Tree) :
    (Tree.wireElems b).length + (varintBytes (t.wire false).length).length + (t.wire false).length ≤
      (Tree.wireElems (b ++ t :: a)).length := by
  rw [wireElems_eq, wireElems_eq]
  simp only [List.flatMap_append, List.flatMap_cons, List.length_append]
  omega

/-- A cut is the whole layout, or something is missing. -/
theorem Tree.Cut.eq_or_lt {f : Bool} {t t' : Tree} {p : Bytes} (h : Tree.Cut f t p t') :
    (p = t.wire f ∧ t' = t) ∨ p.length < (t.wire f).length := by
  cases h with
  | whole => exact .inl ⟨rfl, rfl⟩
  | bytes _ b p h hp => exact .inr hp
  | string _ u u' h hp => exact .inr hp
  | character _ u p h hp hv => exact .inr hp
  | scalar _ s v p h hp => exact .inr hp
  | units _ n p h hp => exact .inr hp
  | scalars _ s before after v q h hq =>
    right
    simp only [Tree.wire, List.flatMap_append, List.flatMap_cons, List.length_append]
    omega
  | size _ before after t q h hq =>
    right
    have := Tree.wireElems_cons_length before after t
    simp only [Tree.wire, List.length_append]
    omega
  | elem _ before after t t' q h hq =>
    right
    have := Tree.wireElems_cons_length before after t
    simp only [Tree.wire, List.length_append]
    omega
  | header _ before after i t q h hq =>
    right
    have := Tree.wireFields_cons_length before after i t
    have := h.length_le
    simp only [Tree.wire, List.length_append]
    rcases hq with hq | ⟨-, hq, -⟩ <;> omega
  | value _ before after i t t' q h hq hp =>
    right
    have := Tree.wireFields_cons_length before after i t
    simp only [Tree.wire, List.length_append]
    omega

theorem header_cut_length {i : Nat} {t : Tree} {q : Bytes} (h : q <+: Spec.header i (t.wire true).length t.isInteger)
    (hq : q.length < (Spec.header i (t.wire true).length t.isInteger).length ∨ t.Peeked) :
    q.length < (Spec.field i t.isInteger (t.wire true)).length := by
  have := h.length_le
  simp only [Spec.field, List.length_append]
  rcases hq with hq | ⟨-, hq, -⟩ <;> omega

theorem Tree.Cut.unique {f : Bool} {t t₁ t₂ : Tree} {p : Bytes} (h₁ : Tree.Cut f t p t₁) (h₂ : Tree.Cut f t p t₂) : t₁ = t₂ := by
  induction h₁ generalizing t₂ with
  | whole f t =>
    rcases h₂.eq_or_lt with ⟨-, h⟩ | h
    · exact h.symm
    · omega
  | bytes f b p h hp =>
    generalize ht : Tree.bytes b = t at h₂
    cases h₂ with
    | whole => subst ht; simp only [Tree.wire] at hp; omega
    | bytes => rfl
    | _ => cases ht
  | string f u u' h hp =>
    generalize ht : Tree.string u = t at h₂
    generalize hpp : u'.bytes = p at h₂
    cases h₂ with
    | whole => subst ht; rw [hpp] at hp; simp only [Tree.wire] at hp; omega
    | string _ w w' h' hp' =>
      have : u' = w' := by cases u'; cases w'; simp only at hpp; subst hpp; rfl
      rw [this]
    | character _ w p h' hp' hv => subst hpp; rw [u'.valid] at hv; cases hv
    | _ => cases ht
  | character f u p h hp hv =>
    generalize ht : Tree.string u = t at h₂
    cases h₂ with
    | whole => subst ht; simp only [Tree.wire] at hp; omega
    | string _ w w' h' hp' => rw [w'.valid] at hv; cases hv
    | character => rfl
    | _ => cases ht
  | scalar f s v p h hp =>
    generalize ht : Tree.scalar s v = t at h₂ hp
    cases h₂ with
    | whole => omega
    | scalar => rfl
    | _ => cases ht
  | units f n p h hp =>
    generalize ht : Tree.units n = t at h₂ hp
    cases h₂ with
    | whole => omega
    | units => rfl
    | _ => cases ht
  | scalars f s before after v q h hq =>
    have hw := (Tree.Cut.scalars f s before after v q h hq).eq_or_lt
    generalize ht : Tree.scalars s (before ++ v :: after) = t at h₂ hw
    generalize hpp : before.flatMap (scalarElem s) ++ q = p' at h₂ hw
    cases h₂ with
    | whole =>
      rcases hw with ⟨-, hw⟩ | hw
      · exact hw
      · omega
    | scalars _ s' b' a' v' q' h' hq' =>
      injection ht with h1 h2
      subst h1
      rw [(split_unique (scalarElem s) (eq_of_heq h2) hpp hq hq').1]
    | _ => cases ht
  | size f before after x q h hq =>
    have hw := (Tree.Cut.size f before after x q h hq).eq_or_lt
    generalize ht : Tree.array (before ++ x :: after) = t at h₂ hw
    generalize hpp : Tree.wireElems before ++ q = p' at h₂ hw
    cases h₂ with
    | whole =>
      rcases hw with ⟨-, hw⟩ | hw
      · exact hw
      · omega
    | size _ b' a' x' q' h' hq' =>
      injection ht with h1
      rw [wireElems_eq, wireElems_eq] at hpp
      rw [(split_unique _ h1 hpp (by simp only [List.length_append]; omega) (by simp only [List.length_append]; omega)).1]
    | elem _ b' a' x' y' q' h' hq' =>
      injection ht with h1
      rw [wireElems_eq, wireElems_eq] at hpp
      obtain ⟨-, rfl, rfl⟩ := split_unique _ h1 hpp (by simp only [List.length_append]; omega) (by simp only [List.length_append]; omega)
      simp only [List.length_append] at hq
      omega
    | _ => cases ht
  | elem f before after x y q h hq ih =>
    have hw := (Tree.Cut.elem f before after x y q h hq).eq_or_lt
    generalize ht : Tree.array (before ++ x :: after) = t at h₂ hw
    generalize hpp : Tree.wireElems before ++ (varintBytes (x.wire false).length ++ q) = p' at h₂ hw
    cases h₂ with
    | whole =>
      rcases hw with ⟨-, hw⟩ | hw
      · exact hw
      · omega
    | size _ b' a' x' q' h' hq' =>
      injection ht with h1
      rw [wireElems_eq, wireElems_eq] at hpp
      obtain ⟨-, rfl, rfl⟩ := split_unique _ h1 hpp (by simp only [List.length_append]; omega) (by simp only [List.length_append]; omega)
      simp only [List.length_append] at hq'
      omega
    | elem _ b' a' x' y' q' h' hq' =>
      injection ht with h1
      rw [wireElems_eq, wireElems_eq] at hpp
      obtain ⟨rfl, rfl, h3⟩ := split_unique _ h1 hpp (by simp only [List.length_append]; omega) (by simp only [List.length_append]; omega)
      have h3 := List.append_cancel_left h3
      subst h3
      rw [ih h']
    | _ => cases ht
  | header f before after i x q h hq =>
    have hw := (Tree.Cut.header f before after i x q h hq).eq_or_lt
    generalize ht : Tree.fields (before ++ (i, x) :: after) = t at h₂ hw
    generalize hpp : Tree.wireFields before ++ q = p' at h₂ hw
    cases h₂ with
    | whole =>
      rcases hw with ⟨-, hw⟩ | hw
      · exact hw
      · omega
    | header _ b' a' i' x' q' h' hq' =>
      injection ht with h1
      rw [wireFields_eq, wireFields_eq] at hpp
      rw [(split_unique _ h1 hpp (header_cut_length h hq) (header_cut_length h' hq')).1]
    | value _ b' a' i' x' y' q' h' hq' hp' =>
      injection ht with h1
      rw [wireFields_eq, wireFields_eq] at hpp
      obtain ⟨-, h2, rfl⟩ := split_unique _ h1 hpp (header_cut_length h hq) (by simp only [Spec.field, List.length_append]; omega)
      cases h2
      have := h.length_le
      simp only [List.length_append] at this hq
      have hq0 : q' = [] := List.eq_nil_of_length_eq_zero (by omega)
      rcases hq with hq | hq
      · omega
      · exact absurd hq0 (hp' hq)
    | _ => cases ht
  | value f before after i x y q h hq hp ih =>
    have hw := (Tree.Cut.value f before after i x y q h hq hp).eq_or_lt
    generalize ht : Tree.fields (before ++ (i, x) :: after) = t at h₂ hw
    generalize hpp : Tree.wireFields before ++ (Spec.header i (x.wire true).length x.isInteger ++ q) = p' at h₂ hw
    cases h₂ with
    | whole =>
      rcases hw with ⟨-, hw⟩ | hw
      · exact hw
      · omega
    | header _ b' a' i' x' q' h' hq' =>
      injection ht with h1
      rw [wireFields_eq, wireFields_eq] at hpp
      obtain ⟨-, h2, rfl⟩ := split_unique _ h1 hpp (by simp only [Spec.field, List.length_append]; omega) (header_cut_length h' hq')
      cases h2
      have := h'.length_le
      simp only [List.length_append] at this hq'
      have hq0 : q = [] := List.eq_nil_of_length_eq_zero (by omega)
      rcases hq' with hq' | hq'
      · omega
      · exact absurd hq0 (hp hq')
    | value _ b' a' i' x' y' q' h' hq' hp' =>
      injection ht with h1
      rw [wireFields_eq, wireFields_eq] at hpp
      obtain ⟨rfl, h2, h3⟩ := split_unique _ h1 hpp (by simp only [Spec.field, List.length_append]; omega)
        (by simp only [Spec.field, List.length_append]; omega)
      cases h2
      have h3 := List.append_cancel_left h3
      subst h3
      rw [ih h']
    | _ => cases ht

/-! ### Writers know their fields -/

theorem Fields.knowsAt_absent : (fs : Fields) → (j : Nat) → (t : Tree) → j ∉ fs.indices → fs.KnowsAt j t
  | .nil, _, _, _ => trivial
  | .cons i r ty rest, j, t, h => by
    simp only [Fields.indices, List.mem_cons, not_or] at h
    exact ⟨fun e => absurd e h.1, Fields.knowsAt_absent rest j t h.2⟩

mutual
theorem CTy.knows_tree {d : Dir} : (c : CTy) → c.WF → (m : c.Msg d) → c.Knows (c.tree m)
  | .bytes, _, _ => trivial
  | .string, _, _ => trivial
  | .units, _, _ => trivial
  | .scalars _, _, _ => trivial
  | .array c, hw, m => by
    simp only [CTy.WF] at hw
    simp only [CTy.tree, CTy.Knows]
    intro t ht
    obtain ⟨x, _, rfl⟩ := List.mem_map.1 ht
    exact CTy.knows_tree c hw x
  | .struct fs, hw, m => by
    simp only [CTy.WF] at hw
    simp only [CTy.tree, CTy.Knows]
    exact fun p hp => ⟨Fields.treeStruct_mem fs m p hp, Fields.knows_treeStruct fs hw.1 hw.2 m p hp⟩
  | .choice fs, hw, m => by
    simp only [CTy.WF] at hw
    simp only [CTy.tree, CTy.Knows]
    exact chain_mem_toList _ _ _ (fun a => ⟨Fields.treeSel_mem fs a, Fields.knows_treeSel fs hw.1 hw.2 a⟩)
      (fun a => ⟨Fields.treeSel_mem fs a, Fields.knows_treeSel fs hw.1 hw.2 a⟩) m

theorem Ty.knows_tree {d : Dir} : (t : Ty) → t.WF → (m : t.Msg d) → t.Knows (t.tree m)
  | .unit, _, _ => trivial
  | .scalar _, _, _ => trivial
  | .comp c, hw, m => by
    simp only [Ty.WF] at hw
    simp only [Ty.tree, Ty.Knows]
    exact CTy.knows_tree c hw m

theorem Fields.knows_treeStruct {d : Dir} : (fs : Fields) → fs.indices.Nodup → fs.WF → (m : fs.Struct d) →
    ∀ p ∈ fs.treeStruct m, fs.KnowsAt p.1 p.2
  | .nil, _, _, _, p, hp => by simp [Fields.treeStruct] at hp
  | .cons i r t rest, hn, hw, (slot, m), p, hp => by
    simp only [Fields.indices, List.nodup_cons] at hn
    simp only [Fields.WF] at hw
    simp only [Fields.treeStruct, List.mem_append] at hp
    simp only [Fields.KnowsAt]
    rcases hp with hp | hp
    · split at hp
      · cases hp
      · rename_i v _
        simp only [List.mem_singleton] at hp
        subst hp
        exact ⟨fun _ => Ty.knows_tree t hw.2.1 v, Fields.knowsAt_absent rest i _ hn.1⟩
    · exact ⟨fun e => absurd (e ▸ Fields.treeStruct_mem rest m p hp) hn.1, Fields.knows_treeStruct rest hn.2 hw.2.2 m p hp⟩

theorem Fields.knows_treeSel {d : Dir} {fb : Bool} : (fs : Fields) → fs.indices.Nodup → fs.WF → (m : fs.Sel d fb) →
    fs.KnowsAt (fs.treeSel m).1 (fs.treeSel m).2
  | .nil, _, _, e => e.elim
  | .cons i r t rest, hn, hw, .inl p => by
    simp only [Fields.indices, List.nodup_cons] at hn
    simp only [Fields.WF] at hw
    simp only [Fields.treeSel, Fields.KnowsAt]
    exact ⟨fun _ => Ty.knows_tree t hw.2.1 p.val, Fields.knowsAt_absent rest i _ hn.1⟩
  | .cons i r t rest, hn, hw, .inr p => by
    simp only [Fields.indices, List.nodup_cons] at hn
    simp only [Fields.WF] at hw
    simp only [Fields.treeSel, Fields.KnowsAt]
    exact ⟨fun e => absurd (e ▸ Fields.treeSel_mem rest p) hn.1, Fields.knows_treeSel rest hn.2 hw.2.2 p⟩
end

end Typical

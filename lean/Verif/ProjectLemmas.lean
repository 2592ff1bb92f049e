import Verif.CompatLemmas
import Verif.Spec.Project

/-!
# Helper lemmas: what a reader gets has the specified content
-/

namespace Typical

theorem mapM_project {α : Type} (f : Tree → Option α) (g : α → Tree) (h : Tree → Tree)
    (e : ∀ t a, f t = some a → g a = h t) : ∀ (l : List Tree) (vs : List α), l.mapM f = some vs →
    vs.map g = l.map h := by
  intro l
  induction l with
  | nil => intro vs hv; cases hv; rfl
  | cons t l ih =>
    intro vs hv
    rw [List.mapM_cons] at hv
    cases hf : f t with
    | none => rw [hf] at hv; cases hv
    | some a =>
      rw [hf] at hv
      cases hl : l.mapM f with
      | none => rw [hl] at hv; cases hv
      | some as =>
        rw [hl] at hv
        cases hv
        simp only [List.map_cons, e t a hf, ih as hl]

theorem Fields.projectAt_lookup : (gs : Fields) → {i : Nat} → {r : Rule} → {t : Ty} →
    gs.lookup i = some (r, t) → (tr : Tree) → gs.projectAt i tr = t.project tr
  | .nil, _, _, _, h, _ => by simp [Fields.lookup] at h
  | .cons j r' t' rest, i, r, t, h, tr => by
    rw [Fields.lookup] at h
    simp only [Fields.projectAt]
    split at h
    · cases h; rename_i e; rw [if_pos e]
    · rename_i e; rw [if_neg e]; exact Fields.projectAt_lookup rest h tr

theorem Scalar.cast_some {s s' : Scalar} {v : s'.Val} {w : s.Val} (h : s.cast s' v = some w) :
    Tree.scalar s w = Tree.scalar s' v := by
  unfold Scalar.cast at h
  split at h
  · rename_i e
    subst e
    cases h
    rfl
  · cases h

theorem scalars_some {s s' : Scalar} {vs : List s'.Val} {w : List s.Val}
    (h : (if h : s' = s then some (h ▸ vs) else none : Option (List s.Val)) = some w) :
    Tree.scalars s w = Tree.scalars s' vs := by
  split at h
  · rename_i e
    subst e
    cases h
    rfl
  · cases h

mutual
theorem CTy.tree_read : (c : CTy) → c.WF → (tr : Tree) → (v : c.Msg .inn) → c.read tr = some v →
    c.tree v = c.project tr
  | .bytes, _, tr, v, h => by cases tr <;> cases h; rfl
  | .string, _, tr, v, h => by cases tr <;> cases h; rfl
  | .units, _, tr, v, h => by cases tr <;> cases h; rfl
  | .scalars s, _, tr, v, h => by
    cases tr <;> try cases h
    exact scalars_some h
  | .array c, hw, tr, v, h => by
    simp only [CTy.WF] at hw
    cases tr <;> try cases h
    rename_i l
    simp only [CTy.read] at h
    simp only [CTy.project]
    exact congrArg Tree.array (mapM_project _ _ _ (CTy.tree_read c hw) l v h)
  | .struct gs, hw, tr, v, h => by
    simp only [CTy.WF] at hw
    cases tr <;> try cases h
    rename_i l
    simp only [CTy.read] at h
    simp only [CTy.project]
    exact congrArg Tree.fields (Fields.tree_readStruct gs hw.2 l v h)
  | .choice gs, hw, tr, v, h => by
    simp only [CTy.WF] at hw
    cases tr <;> try cases h
    rename_i l
    simp only [CTy.read] at h
    simp only [CTy.project]
    have key : ∀ (l : List (Nat × Tree)) (v : Chain (gs.Sel .inn true) (gs.Sel .inn false)),
        readChain gs.readVariant l = some v → v.toList gs.treeSel gs.treeSel =
          (Spec.upTo (fun p => gs.stopsAt p.1) (l.filter (fun p => gs.indices.contains p.1))).map
            (fun p => (p.1, gs.projectAt p.1 p.2)) := by
      intro l
      induction l with
      | nil => intro v h; cases h
      | cons p l ih =>
        intro v h
        obtain ⟨i, tr⟩ := p
        rw [readChain] at h
        by_cases hi : i ∈ gs.indices
        · obtain ⟨r, t, hl⟩ := Fields.lookup_of_mem hi
          have hk := Fields.readVariant_known gs i tr r t hl
          rw [List.filter_cons_of_pos (by simpa using hi)]
          simp only [Spec.upTo]
          cases hv : t.read tr with
          | none => rw [hv] at hk; simp only at hk; rw [hk] at h; cases h
          | some w =>
            have hproj : t.tree w = gs.projectAt i tr := by
              rw [Fields.projectAt_lookup gs hl]
              exact Fields.tree_readAt gs hw.2 hl tr w hv
            rw [hv] at hk
            obtain ⟨x, h3, h4⟩ := hk
            rw [h3] at h
            cases x with
            | inl a =>
              simp only at h h4
              have hst : gs.stopsAt i = false := by simp only [Fields.stopsAt, hl, h4.1]
              cases hc : readChain gs.readVariant l with
              | none => rw [hc] at h; cases h
              | some v' =>
                rw [hc] at h
                cases h
                simp only [Chain.toList, hst, h4.2, hproj, ih v' hc]
                rfl
            | inr b =>
              simp only at h h4
              have hst : gs.stopsAt i = true := by
                simp only [Fields.stopsAt, hl]
                cases r
                · rfl
                · exact absurd rfl h4.1
                · rfl
              cases h
              simp only [Chain.toList, hst, h4.2, hproj]
              rfl
        · rw [Fields.readVariant_unknown gs i tr hi] at h
          rw [List.filter_cons_of_neg (by simpa using hi)]
          exact ih v h
    exact congrArg Tree.fields (key l v h)

theorem Ty.tree_read : (t : Ty) → t.WF → (tr : Tree) → (v : t.Msg .inn) → t.read tr = some v →
    t.tree v = t.project tr
  | .unit, _, tr, v, h => by cases tr <;> cases h; rfl
  | .scalar s, _, tr, v, h => by
    cases tr <;> try cases h
    exact Scalar.cast_some h
  | .comp c, hw, tr, v, h => by
    simp only [Ty.WF] at hw
    exact CTy.tree_read c hw tr v h

theorem Fields.tree_readAt : (gs : Fields) → gs.WF → {i : Nat} → {r : Rule} → {t : Ty} →
    gs.lookup i = some (r, t) → (tr : Tree) → (v : t.Msg .inn) → t.read tr = some v →
    t.tree v = t.project tr
  | .nil, _, _, _, _, h, _, _, _ => by simp [Fields.lookup] at h
  | .cons j r' t' rest, hw, i, r, t, h, tr, v, hv => by
    simp only [Fields.WF] at hw
    rw [Fields.lookup] at h
    split at h
    · cases h; exact Ty.tree_read t' hw.2.1 tr v hv
    · exact Fields.tree_readAt rest hw.2.2 h tr v hv

theorem Fields.tree_readStruct : (gs : Fields) → gs.WF → (l : List (Nat × Tree)) →
    (m : gs.Struct .inn) → gs.readStruct l = some m → gs.treeStruct m = gs.projectStruct l
  | .nil, _, _, _, _ => rfl
  | .cons j r t rest, hw, l, (s, m), h => by
    simp only [Fields.WF] at hw
    simp only [Fields.readStruct] at h
    cases h1 : (l.filter (fun p => p.1 == j)).mapM (fun p => t.read p.2) with
    | none => rw [h1] at h; cases h
    | some vs =>
      rw [h1] at h
      simp only at h
      cases h2 : Slot.ofOption (r.mayOmit .inn) vs.head? with
      | none => rw [h2] at h; cases h
      | some s' =>
        cases h3 : rest.readStruct l with
        | none => rw [h2, h3] at h; cases h
        | some m' =>
          rw [h2, h3] at h
          cases h
          have hs := Slot.ofOption_get? h2
          rw [mapM_head? h1] at hs
          simp only [Fields.treeStruct, Fields.projectStruct]
          rw [Fields.tree_readStruct rest hw.2.2 l m h3]
          congr 1
          have hl := lookup_eq_head? l j
          cases hf : l.filter (fun p => p.1 == j) with
          | nil =>
            rw [hf] at hl hs
            simp only [List.head?_nil, Option.map_none] at hl
            simp only [List.head?_nil, Option.bind_none] at hs
            rw [hs, ← hl]
          | cons p q =>
            rw [hf] at hl hs h1
            simp only [List.head?_cons, Option.map_some] at hl
            simp only [List.head?_cons, Option.bind_some] at hs
            rw [List.mapM_cons] at h1
            cases hr : t.read p.2 with
            | none => rw [hr] at h1; cases h1
            | some v =>
              rw [hs, ← hl, hr]
              simp only [Ty.tree_read t hw.2.1 p.2 v hr]
end

end Typical

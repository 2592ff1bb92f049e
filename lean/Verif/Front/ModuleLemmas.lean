import Verif.Spec.Modules
import Verif.Spec.Schema
import Mathlib.Data.List.Perm.Basic

/-!
# Lemmas about the module tree and references
-/

namespace Typical

/-! ### Relative namespaces -/

theorem commonComponents_spec (l l' : List Identifier) :
    commonComponents l l' ≤ l'.length ∧
      (l'.map Identifier.snakeCase).take (commonComponents l l') ++
        (l.drop (commonComponents l l')).map Identifier.snakeCase = l.map Identifier.snakeCase := by
  induction l generalizing l' with
  | nil => simp [commonComponents]
  | cons a l ih =>
    cases l' with
    | nil => simp [commonComponents]
    | cons b l' =>
      unfold commonComponents
      split
      · next h =>
        obtain ⟨h1, h2⟩ := ih l'
        simp only [Identifier.same, beq_iff_eq] at h
        refine ⟨by simpa using h1, ?_⟩
        simp only [List.map_cons, List.take_succ_cons, List.drop_succ_cons, List.cons_append, h2, h]
      · simp

theorem commonComponents_max (l l' : List Identifier) (n : Nat) (hn : n ≤ l'.length) (rest : List Str)
    (h : (l'.map Identifier.snakeCase).take n ++ rest = l.map Identifier.snakeCase) :
    n ≤ commonComponents l l' := by
  induction n generalizing l l' with
  | zero => exact Nat.zero_le _
  | succ n ih =>
    cases l' with
    | nil => simp at hn
    | cons b l' =>
      cases l with
      | nil => simp at h
      | cons a l =>
        simp only [List.map_cons, List.take_succ_cons, List.cons_append, List.cons.injEq] at h
        unfold commonComponents
        rw [if_pos (by simp [Identifier.same, h.1])]
        have := ih l l' (by simpa using hn) h.2
        omega

/-! ### The module tree -/

theorem Modules.get_set (k k' : Str) (m : Module) (ms : Modules) (h : (ms.get k).isSome) :
    (ms.set k m).get k' = if k' = k then some m else ms.get k' := by
  match ms with
  | .nil => simp [Modules.get] at h
  | .cons n m' rest =>
    unfold Modules.set
    by_cases hn : n.snakeCase = k
    · rw [if_pos hn]
      simp only [Modules.get, hn]
      by_cases hk : k' = k
      · rw [if_pos hk.symm, if_pos hk]
      · rw [if_neg (Ne.symm hk), if_neg (Ne.symm hk), if_neg hk]
    · rw [if_neg hn]
      simp only [Modules.get, if_neg hn] at h ⊢
      have := Modules.get_set k k' m rest h
      by_cases hk : n.snakeCase = k'
      · rw [if_pos hk, if_pos hk, if_neg (by rintro rfl; exact hn hk)]
      · rw [if_neg hk, if_neg hk, this]

theorem Modules.get_insert (k : Identifier) (k' : Str) (m : Module) (ms : Modules) (h : ms.get k.snakeCase = none) :
    (ms.insert k m).get k' = if k' = k.snakeCase then some m else ms.get k' := by
  match ms with
  | .nil =>
    simp only [Modules.insert, Modules.get]
    by_cases hk : k' = k.snakeCase
    · rw [if_pos hk.symm, if_pos hk]
    · rw [if_neg (Ne.symm hk), if_neg hk]
  | .cons n m' rest =>
    simp only [Modules.get] at h
    by_cases hn : n.snakeCase = k.snakeCase
    · rw [if_pos hn] at h; cases h
    · rw [if_neg hn] at h
      unfold Modules.insert
      split
      · simp only [Modules.get]
        by_cases hk : k' = k.snakeCase
        · rw [if_pos hk.symm, if_pos hk]
        · rw [if_neg (Ne.symm hk), if_neg hk]
      · simp only [Modules.get]
        rw [Modules.get_insert k k' m rest h]
        by_cases hk : n.snakeCase = k'
        · rw [if_pos hk, if_pos hk, if_neg (by rintro rfl; exact hn hk)]
        · rw [if_neg hk, if_neg hk]

/-- The schema found at a path. -/
def Module.schemaAt (m : Module) (p : List Str) : Option Schema := (m.find p).map Module.schema

theorem Module.find_cons (ms : Modules) (s : Schema) (k : Str) (ks : List Str) :
    (Module.mk ms s).find (k :: ks) = (ms.get k).bind (fun m => m.find ks) := by
  rw [Module.find]
  cases ms.get k <;> rfl

theorem Module.empty_find (p : List Str) : Module.empty.schemaAt p = if p = [] then some emptySchema else none := by
  cases p with
  | nil => rfl
  | cons k ks => rfl

/-- What is found after an insertion: at the path, the schema inserted; elsewhere, what was there before, except that missing
ancestors are created. -/
theorem schemaAt_insert (m : Module) (p : List Identifier) (s : Schema) (q : List Str) :
    (insertSchema m p s).schemaAt q =
      if q = p.map Identifier.snakeCase then some s
      else if q <+: p.map Identifier.snakeCase then some ((m.schemaAt q).getD emptySchema)
      else m.schemaAt q := by
  induction p generalizing m q with
  | nil =>
    obtain ⟨ms, s0⟩ := m
    unfold insertSchema
    cases q with
    | nil => simp [Module.schemaAt, Module.find, Module.schema]
    | cons k ks =>
      rw [if_neg (by simp), if_neg (by simp)]
      simp only [Module.schemaAt, Module.find_cons]
  | cons h t ih =>
    obtain ⟨ms, s0⟩ := m
    unfold insertSchema
    cases hg : ms.get h.snakeCase with
    | some child =>
      dsimp only
      cases q with
      | nil => simp [Module.schemaAt, Module.find, Module.schema]
      | cons k ks =>
        simp only [Module.schemaAt, Module.find_cons, Modules.get_set _ _ _ _ (by rw [hg]; rfl : (ms.get h.snakeCase).isSome = true),
          List.map_cons, List.cons.injEq, List.cons_prefix_cons]
        by_cases hk : k = h.snakeCase
        · subst hk
          simp only [if_true, true_and, hg, Option.bind_some]
          exact ih child ks
        · simp [hk]
    | none =>
      dsimp only
      cases q with
      | nil => simp [Module.schemaAt, Module.find, Module.schema]
      | cons k ks =>
        simp only [Module.schemaAt, Module.find_cons, Modules.get_insert _ _ _ _ hg,
          List.map_cons, List.cons.injEq, List.cons_prefix_cons]
        by_cases hk : k = h.snakeCase
        · subst hk
          simp only [if_true, true_and, hg, Option.bind_some, Option.bind_none, Option.map_none, Option.getD_none]
          have := ih .empty ks
          simp only [Module.schemaAt] at this
          rw [this]
          split
          · rfl
          · have e := Module.empty_find ks
            simp only [Module.schemaAt] at e
            split
            · rw [e]; split <;> rfl
            · next h1 h2 =>
              rw [e, if_neg]
              rintro rfl
              exact h2 (List.nil_prefix)
        · simp [hk]

/-! ### What is written -/

/-- Declarations with the keys of their modules. -/
def keyed (l : List (List Identifier × Declaration)) : List (List Str × Declaration) :=
  l.map (fun e => (e.1.map Identifier.snakeCase, e.2))

theorem keyed_append (l l') : keyed (l ++ l') = keyed l ++ keyed l' := List.map_append

/-- Replacing a child changes what is written accordingly. -/
theorem Modules.written_set (ns : List Identifier) (k : Str) (m m' : Module) (ms : Modules) (h : ms.get k = some m)
    (extra : List (List Str × Declaration))
    (hm : ∀ n : Identifier, n.snakeCase = k →
      (keyed (m'.written (ns ++ [n]))).Perm (keyed (m.written (ns ++ [n])) ++ extra)) :
    (keyed ((ms.set k m').written ns)).Perm (keyed (ms.written ns) ++ extra) := by
  match ms with
  | .nil => simp [Modules.get] at h
  | .cons n c rest =>
    unfold Modules.set
    simp only [Modules.get] at h
    by_cases hn : n.snakeCase = k
    · rw [if_pos hn] at h ⊢
      cases h
      simp only [Modules.written, keyed_append]
      refine ((hm n hn).append_right _).trans ?_
      rw [List.append_assoc, List.append_assoc]
      exact (List.perm_append_comm).append_left _
    · rw [if_neg hn] at h ⊢
      simp only [Modules.written, keyed_append]
      rw [List.append_assoc]
      exact (Modules.written_set ns k m m' rest h extra hm).append_left _

theorem Modules.written_insert (ns : List Identifier) (k : Identifier) (m : Module) (ms : Modules) :
    (keyed ((ms.insert k m).written ns)).Perm (keyed (ms.written ns) ++ keyed (m.written (ns ++ [k]))) := by
  match ms with
  | .nil =>
    simp only [Modules.insert, Modules.written, keyed_append]
    exact List.perm_append_comm
  | .cons n c rest =>
    unfold Modules.insert
    split
    · simp only [Modules.written, keyed_append]
      exact List.perm_append_comm
    · simp only [Modules.written, keyed_append]
      rw [List.append_assoc]
      exact (Modules.written_insert ns k m rest).append_left _

theorem written_insert (m : Module) (p : List Identifier) (s : Schema) (ns : List Identifier)
    (h : ∀ s0, m.schemaAt (p.map Identifier.snakeCase) = some s0 → s0.declarations = []) :
    (keyed ((insertSchema m p s).written ns)).Perm
      (keyed (m.written ns) ++ s.declarations.map (fun d => ((ns ++ p).map Identifier.snakeCase, d))) := by
  induction p generalizing m ns with
  | nil =>
    obtain ⟨ms, s0⟩ := m
    have h0 := h s0 rfl
    unfold insertSchema
    simp only [Module.written, keyed_append, h0, List.map_nil, List.append_nil]
    unfold keyed
    rw [List.map_map]
    exact List.Perm.refl _
  | cons hd t ih =>
    obtain ⟨ms, s0⟩ := m
    unfold insertSchema
    cases hg : ms.get hd.snakeCase with
    | some child =>
      simp only [Module.written, keyed_append]
      have := Modules.written_set ns hd.snakeCase child (insertSchema child t s) ms hg
        (s.declarations.map (fun d => ((ns ++ hd :: t).map Identifier.snakeCase, d))) (by
          intro n hn
          have := ih child (ns ++ [n]) (by
            intro s1 hs1
            refine h s1 ?_
            simp only [Module.schemaAt, List.map_cons, Module.find_cons, hg, Option.bind_some]
            exact hs1)
          simpa [hn] using this)
      refine (this.append_right _).trans ?_
      rw [List.append_assoc, List.append_assoc]
      exact (List.perm_append_comm).append_left _
    | none =>
      simp only [Module.written, keyed_append]
      have h1 := Modules.written_insert ns hd (insertSchema .empty t s) ms
      have h2 := ih .empty (ns ++ [hd]) (by
        intro s1 hs1
        rw [Module.empty_find] at hs1
        split at hs1
        · cases hs1; rfl
        · cases hs1)
      have h3 : keyed (Module.empty.written (ns ++ [hd])) = [] := by
        simp [Module.empty, Module.written, Modules.written, emptySchema, keyed]
      rw [h3, List.nil_append] at h2
      refine ((h1.trans (h2.append_left _)).append_right _).trans ?_
      simp only [List.append_assoc, List.singleton_append]
      exact (List.perm_append_comm).append_left _

/-- Invariant of the construction of the tree. -/
theorem buildTree_spec (S : Schemas) (hn : (S.map (fun e => e.1.key)).Nodup) :
    (∀ e ∈ S, (buildTree S).schemaAt e.1.key = some e.2) ∧
    (∀ q s, (buildTree S).schemaAt q = some s → (∃ e ∈ S, e.1.key = q ∧ e.2 = s) ∨ s = emptySchema) ∧
    (keyed ((buildTree S).written [])).Perm
      (S.flatMap (fun e => e.2.declarations.map (fun d => (e.1.key, d)))) := by
  have gen : ∀ (l done : Schemas) (m : Module), ((done ++ l).map (fun e => e.1.key)).Nodup →
      (∀ e ∈ done, m.schemaAt e.1.key = some e.2) →
      (∀ q s, m.schemaAt q = some s → (∃ e ∈ done, e.1.key = q ∧ e.2 = s) ∨ s = emptySchema) →
      (keyed (m.written [])).Perm (done.flatMap (fun e => e.2.declarations.map (fun d => (e.1.key, d)))) →
      let m' := l.foldl (fun m e => insertSchema m e.1.components e.2) m
      (∀ e ∈ done ++ l, m'.schemaAt e.1.key = some e.2) ∧
      (∀ q s, m'.schemaAt q = some s → (∃ e ∈ done ++ l, e.1.key = q ∧ e.2 = s) ∨ s = emptySchema) ∧
      (keyed (m'.written [])).Perm
        ((done ++ l).flatMap (fun e => e.2.declarations.map (fun d => (e.1.key, d)))) := by
    intro l
    induction l with
    | nil => intro done m _ h1 h2 h3; rw [List.append_nil]; exact ⟨h1, h2, h3⟩
    | cons e l ih =>
      intro done m hnd h1 h2 h3
      have hnot : ∀ e' ∈ done, e'.1.key ≠ e.1.key := by
        intro e' he' heq
        rw [List.map_append, List.map_cons] at hnd
        exact (List.nodup_append.mp hnd).2.2 _ (List.mem_map.mpr ⟨e', he', rfl⟩) _ List.mem_cons_self heq
      have hempty : ∀ s0, m.schemaAt e.1.key = some s0 → s0.declarations = [] := by
        intro s0 hs0
        rcases h2 _ _ hs0 with ⟨e', he', hk, -⟩ | h
        · exact absurd hk (hnot e' he')
        · rw [h]; rfl
      have := ih (done ++ [e]) (insertSchema m e.1.components e.2) (by simpa using hnd) ?_ ?_ ?_
      · rw [List.append_assoc] at this; exact this
      · intro e' he'
        rw [schemaAt_insert]
        rcases List.mem_append.mp he' with he' | he'
        · have hne := hnot e' he'
          rw [if_neg (show ¬ e'.1.key = List.map Identifier.snakeCase e.1.components from hne), h1 e' he']
          split <;> rfl
        · rw [List.mem_singleton.mp he', if_pos (show e.1.key = List.map Identifier.snakeCase e.1.components from rfl)]
      · intro q s hs
        rw [schemaAt_insert] at hs
        split at hs
        · next hq =>
          cases hs
          exact .inl ⟨e, by simp, hq.symm, rfl⟩
        · split at hs
          · cases hm : m.schemaAt q with
            | none => rw [hm] at hs; cases hs; exact .inr rfl
            | some s1 =>
              rw [hm] at hs
              cases hs
              rcases h2 _ _ hm with ⟨e', he', h⟩ | h
              · exact .inl ⟨e', List.mem_append_left _ he', h⟩
              · exact .inr h
          · rcases h2 _ _ hs with ⟨e', he', h⟩ | h
            · exact .inl ⟨e', List.mem_append_left _ he', h⟩
            · exact .inr h
      · have hw := written_insert m e.1.components e.2 [] hempty
        refine hw.trans ?_
        rw [List.flatMap_append]
        refine (h3.append_right _).trans ?_
        simp [Namespace.key]
  have := gen S [] .empty (by simpa using hn) (fun _ h => nomatch h) ?_ ?_
  · exact this
  · intro q s hs
    rw [Module.empty_find] at hs
    split at hs
    · cases hs; exact .inr rfl
    · cases hs
  · simp [Module.empty, Module.written, Modules.written, emptySchema, keyed]

end Typical

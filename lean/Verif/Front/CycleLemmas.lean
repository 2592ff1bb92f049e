import Verif.Front.ValidatorLemmas

/-!
# Lemmas about the search for cycles
-/

namespace Typical

/-- Visit a list of types in order. -/
def visitAll (visit : CycleState → TypeKey → Except Stop CycleState) :
    List TypeKey → CycleState → Except Stop CycleState
  | [], st => .ok st
  | k :: ks, st =>
    match visit st k with
    | .error e => .error e
    | .ok st => visitAll visit ks st

theorem visitAll_append (visit) (l l' : List TypeKey) (st : CycleState) :
    visitAll visit (l ++ l') st = (match visitAll visit l st with
      | .error e => .error e
      | .ok st => visitAll visit l' st) := by
  induction l generalizing st with
  | nil => rfl
  | cons k l ih =>
    rw [List.cons_append]
    simp only [visitAll]
    cases visit st k with
    | error e => rfl
    | ok st => exact ih st

/-- The types mentioned by the fields of the type `k`, in order. -/
def succs (S : Schemas) (k : TypeKey) : List TypeKey :=
  match allTypes S k with
  | none => []
  | some (s, d) => d.fields.flatMap (fun f => typeTarget s k.1 f.type.variant)

theorem checkType_eq (visit) (s : Schema) (ns : List Str) (t : TypeVariant)
    (h : ∀ i n, t.Mentions (some i) n → ∃ im, lookupIdent i s.imports = some im ∧ im.namespace_ ≠ none)
    (st : CycleState) : checkType visit s ns st t = visitAll visit (typeTarget s ns t) st := by
  induction t with
  | array r t ih => exact ih (fun i n hm => h i n (.array hm))
  | custom i n =>
    cases i with
    | none =>
      simp only [checkType, typeTarget, visitAll]
      cases visit st (ns, n.snakeCase) <;> rfl
    | some i =>
      obtain ⟨im, h1, h2⟩ := h i n (.custom _ _)
      cases hm : im.namespace_ with
      | none => exact absurd hm h2
      | some m =>
        simp only [checkType, typeTarget, h1, hm, visitAll]
        cases visit st (m.key, n.snakeCase) <;> rfl
  | bool | bytes | f64 | s64 | string | u64 | unit => rfl

theorem checkFieldTypes_eq (visit) (s : Schema) (ns : List Str) (fs : List Field)
    (h : ∀ f ∈ fs, ∀ i n, f.type.variant.Mentions (some i) n →
      ∃ im, lookupIdent i s.imports = some im ∧ im.namespace_ ≠ none)
    (st : CycleState) :
    checkFieldTypes visit s ns fs st = visitAll visit (fs.flatMap (fun f => typeTarget s ns f.type.variant)) st := by
  induction fs generalizing st with
  | nil => rfl
  | cons f fs ih =>
    rw [List.flatMap_cons, visitAll_append]
    unfold checkFieldTypes
    rw [checkType_eq visit s ns _ (h f List.mem_cons_self)]
    cases visitAll visit (typeTarget s ns f.type.variant) st with
    | error e => rfl
    | ok st => exact ih (fun f hf => h f (List.mem_cons_of_mem _ hf)) st

/-- `IsWalk`, last type first. -/
def IsStack (E : TypeKey → TypeKey → Prop) : List TypeKey → Prop
  | [] => True
  | [_] => True
  | a :: b :: l => E b a ∧ IsStack E (b :: l)

theorem IsWalk.append {E} {l : List TypeKey} {a b : TypeKey} :
    IsWalk E (l ++ [a]) → E a b → IsWalk E (l ++ [a, b]) := by
  induction l with
  | nil => intro _ h; exact ⟨h, trivial⟩
  | cons x l ih =>
    intro h hb
    cases l with
    | nil => exact ⟨h.1, hb, trivial⟩
    | cons y l => exact ⟨h.1, ih h.2 hb⟩

theorem IsStack.reverse {E} {l : List TypeKey} (h : IsStack E l) : IsWalk E l.reverse := by
  induction l with
  | nil => trivial
  | cons a l ih =>
    cases l with
    | nil => trivial
    | cons b l =>
      have := ih h.2
      rw [List.reverse_cons] at this ⊢
      rw [List.reverse_cons, List.append_assoc]
      exact IsWalk.append this h.1

/-- Everything below the top of the stack reaches the top. -/
theorem IsStack.reaches {E} {l : List TypeKey} {a : TypeKey} (h : IsStack E (a :: l)) {x : TypeKey} (hx : x ∈ l) :
    Relation.TransGen E x a := by
  induction l generalizing a with
  | nil => cases hx
  | cons b l ih =>
    rcases List.mem_cons.mp hx with e | hx
    · subst e; exact .single h.1
    · exact .tail (ih h.2 hx) h.1

/-- Types in the order in which they were completed, last first: each contains only earlier ones. -/
def Topo (E : TypeKey → TypeKey → Prop) : List TypeKey → Prop
  | [] => True
  | x :: l => (∀ y, E x y → y ∈ l) ∧ Topo E l

theorem Topo.acc {E} {l : List TypeKey} (h : Topo E l) {x : TypeKey} (hx : x ∈ l) : Acc (fun a b => E b a) x := by
  induction l generalizing x with
  | nil => cases hx
  | cons a l ih =>
    rcases List.mem_cons.mp hx with e | hx
    · subst e; exact Acc.intro _ (fun y hy => ih h.2 (h.1 y hy))
    · exact ih h.2 hx

theorem not_cycle_of_acc {E : TypeKey → TypeKey → Prop} {x : TypeKey} (h : Acc (fun a b => E b a) x) :
    ¬ Relation.TransGen E x x := by
  induction h with
  | intro x _ ih =>
    intro hc
    rcases Relation.TransGen.head'_iff.mp hc with ⟨y, hxy, hyx⟩
    rcases Relation.reflTransGen_iff_eq_or_transGen.mp hyx with e | hyx
    · subst e; exact ih _ hxy hc
    · exact ih y hxy (.tail' hyx.to_reflTransGen hxy)

/-- A report of a cycle: consecutive types contain each other, and the last one occurs before. -/
def CycleReport (E : TypeKey → TypeKey → Prop) (e : VErr) : Prop :=
  ∃ path k, e = .cycle (path ++ [k]) ∧ IsWalk E (path ++ [k]) ∧ k ∈ path ∧ Relation.TransGen E k k

/-- The invariant of the search. -/
structure CycleInv (E : TypeKey → TypeKey → Prop) (K : List TypeKey) (st : CycleState) : Prop where
  set : st.visitedSet = st.visitedVec
  nodup : st.visitedVec.Nodup
  inK : ∀ k ∈ st.visitedVec, k ∈ K
  stack : IsStack E st.visitedVec
  errors : ∀ e ∈ st.errors, CycleReport E e
  topo : st.errors = [] → Topo E st.checked

/-- What a visit establishes. -/
structure CyclePost (E : TypeKey → TypeKey → Prop) (K : List TypeKey) (st st' : CycleState) : Prop where
  inv : CycleInv E K st'
  vec : st'.visitedVec = st.visitedVec
  errors : st'.errors = [] → st.errors = []
  checked : ∀ k ∈ st.checked, k ∈ st'.checked

theorem CyclePost.rfl' {E K st} (h : CycleInv E K st) : CyclePost E K st st := ⟨h, rfl, id, fun _ h => h⟩

theorem CyclePost.trans {E K st st' st''} (h : CyclePost E K st st') (h' : CyclePost E K st' st'') :
    CyclePost E K st st'' :=
  ⟨h'.inv, h'.vec.trans h.vec, fun e => h.errors (h'.errors e), fun k hk => h'.checked k (h.checked k hk)⟩

theorem mem_setInsert {α : Type} [DecidableEq α] {a b : α} {l : List α} : b ∈ setInsert a l ↔ b = a ∨ b ∈ l := by
  unfold setInsert
  split
  · next h => exact ⟨.inr, fun h' => h'.elim (fun e => e ▸ h) id⟩
  · exact List.mem_cons

theorem visitAll_spec {E K} {visit : CycleState → TypeKey → Except Stop CycleState} (top : List TypeKey)
    (hv : ∀ st k, CycleInv E K st → k ∈ K → st.visitedVec = top → IsStack E (k :: st.visitedVec) →
      ∃ st', visit st k = .ok st' ∧ CyclePost E K st st' ∧ k ∈ st'.checked)
    (ks : List TypeKey) (hk : ∀ k ∈ ks, k ∈ K ∧ IsStack E (k :: top))
    (st : CycleState) (hi : CycleInv E K st) (ht : st.visitedVec = top) :
    ∃ st', visitAll visit ks st = .ok st' ∧ CyclePost E K st st' ∧ ∀ k ∈ ks, k ∈ st'.checked := by
  induction ks generalizing st with
  | nil => exact ⟨st, rfl, .rfl' hi, fun _ h => nomatch h⟩
  | cons k ks ih =>
    obtain ⟨h1, h2⟩ := hk k List.mem_cons_self
    obtain ⟨st1, e1, p1, c1⟩ := hv st k hi h1 ht (by rw [ht]; exact h2)
    obtain ⟨st2, e2, p2, c2⟩ := ih (fun k hk' => hk k (List.mem_cons_of_mem _ hk')) st1 p1.inv (p1.vec.trans ht)
    refine ⟨st2, ?_, p1.trans p2, ?_⟩
    · simp only [visitAll, e1]; exact e2
    · intro x hx
      rcases List.mem_cons.mp hx with rfl | hx
      · exact p2.checked _ c1
      · exact c2 x hx

/-- The relation which the search explores. -/
def Edge (S : Schemas) (k k' : TypeKey) : Prop := k' ∈ succs S k

/-- All types mentioned by declared types are declared. -/
structure Resolved (S : Schemas) (K : List TypeKey) : Prop where
  declared : ∀ k ∈ K, (allTypes S k).isSome
  closed : ∀ k ∈ K, ∀ k' ∈ succs S k, k' ∈ K
  imports : ∀ k s d, allTypes S k = some (s, d) → ∀ f ∈ d.fields, ∀ i n, f.type.variant.Mentions (some i) n →
      ∃ im, lookupIdent i s.imports = some im ∧ im.namespace_ ≠ none

theorem checkDeclaration_spec {S : Schemas} {K : List TypeKey} (hr : Resolved S K) (fuel : Nat) (st : CycleState)
    (k : TypeKey) (hi : CycleInv (Edge S) K st) (hk : k ∈ K) (hs : IsStack (Edge S) (k :: st.visitedVec))
    (hf : K.length < fuel + st.visitedVec.length) :
    ∃ st', checkDeclaration S fuel st k = .ok st' ∧ CyclePost (Edge S) K st st' ∧ k ∈ st'.checked := by
  induction fuel generalizing st k with
  | zero =>
    exfalso
    have := (hi.nodup.subperm hi.inK).length_le
    omega
  | succ fuel ih =>
    unfold checkDeclaration
    split
    · next hc => exact ⟨st, rfl, .rfl' hi, hc⟩
    · next hc =>
      split
      · next hv =>
        rw [hi.set] at hv
        refine ⟨_, rfl, ?_, mem_setInsert.mpr (.inl rfl)⟩
        refine ⟨⟨hi.set, hi.nodup, hi.inK, hi.stack, ?_, ?_⟩, rfl, ?_, fun x hx => mem_setInsert.mpr (.inr hx)⟩
        · intro e he
          rcases List.mem_append.mp he with he | he
          · exact hi.errors e he
          · rw [List.mem_singleton.mp he, List.reverse_cons]
            refine ⟨st.visitedVec.reverse, k, rfl, ?_, List.mem_reverse.mpr hv, hs.reaches hv⟩
            have := hs.reverse
            rwa [List.reverse_cons] at this
        · intro h; simp at h
        · intro h; simp at h
      · next hv =>
        rw [hi.set] at hv
        cases hd : allTypes S k with
        | none => have := hr.declared k hk; rw [hd] at this; cases this
        | some sd =>
          obtain ⟨s, d⟩ := sd
          dsimp only
          rw [checkFieldTypes_eq _ s k.1 d.fields (hr.imports k s d hd)]
          have hsucc : d.fields.flatMap (fun f => typeTarget s k.1 f.type.variant) = succs S k := by
            unfold succs; rw [hd]
          rw [hsucc]
          have hpush : CycleInv (Edge S) K
              { st with visitedVec := k :: st.visitedVec, visitedSet := setInsert k st.visitedSet } := by
            refine ⟨?_, List.nodup_cons.mpr ⟨hv, hi.nodup⟩, ?_, hs, hi.errors, hi.topo⟩
            · show setInsert k st.visitedSet = _
              rw [setInsert, hi.set, if_neg hv]
            · intro x hx
              rcases List.mem_cons.mp hx with rfl | hx
              · exact hk
              · exact hi.inK x hx
          obtain ⟨st1, e1, p1, c1⟩ := visitAll_spec (E := Edge S) (K := K) (visit := checkDeclaration S fuel)
            (k :: st.visitedVec)
            (fun st' k' hi' hk' ht' hs' => ih st' k' hi' hk' hs' (by
              rw [ht', List.length_cons]; omega))
            (succs S k) (fun k' hk' => ⟨hr.closed k hk k' hk', hk', hs⟩) _ hpush rfl
          rw [e1]
          refine ⟨_, rfl, ⟨⟨?_, ?_, ?_, ?_, p1.inv.errors, ?_⟩, ?_, p1.errors, ?_⟩, mem_setInsert.mpr (.inl rfl)⟩
          · show st1.visitedSet.filter _ = st1.visitedVec.tail
            rw [p1.inv.set, p1.vec]
            show (k :: st.visitedVec).filter _ = st.visitedVec
            rw [List.filter_cons_of_neg (by simp)]
            apply List.filter_eq_self.mpr
            intro x hx
            simp only [decide_eq_true_eq]
            rintro rfl
            exact hv hx
          · show st1.visitedVec.tail.Nodup
            rw [p1.vec]; exact hi.nodup
          · intro x hx
            have hx : x ∈ st1.visitedVec.tail := hx
            rw [p1.vec] at hx
            exact hi.inK x hx
          · show IsStack _ st1.visitedVec.tail
            rw [p1.vec]; exact hi.stack
          · intro he
            show Topo _ (setInsert k st1.checked)
            unfold setInsert
            split
            · exact p1.inv.topo he
            · exact ⟨fun y hy => c1 y hy, p1.inv.topo he⟩
          · show st1.visitedVec.tail = _
            rw [p1.vec]; rfl
          · intro x hx
            exact mem_setInsert.mpr (.inr (p1.checked x hx))

theorem checkAll_spec {S : Schemas} {K : List TypeKey} (hr : Resolved S K) (fuel : Nat) (hf : K.length < fuel)
    (ks : List TypeKey) (hk : ∀ k ∈ ks, k ∈ K) (st : CycleState) (hi : CycleInv (Edge S) K st)
    (ht : st.visitedVec = []) :
    ∃ st', checkAll S fuel ks st = .ok st' ∧ CyclePost (Edge S) K st st' ∧ ∀ k ∈ ks, k ∈ st'.checked := by
  induction ks generalizing st with
  | nil => exact ⟨st, rfl, .rfl' hi, fun _ h => nomatch h⟩
  | cons k ks ih =>
    obtain ⟨st1, e1, p1, c1⟩ := checkDeclaration_spec hr fuel st k hi (hk k List.mem_cons_self)
      (by rw [ht]; trivial) (by omega)
    obtain ⟨st2, e2, p2, c2⟩ := ih (fun k hk' => hk k (List.mem_cons_of_mem _ hk')) st1 p1.inv (p1.vec.trans ht)
    refine ⟨st2, ?_, p1.trans p2, ?_⟩
    · simp only [checkAll, e1]; exact e2
    · intro x hx
      rcases List.mem_cons.mp hx with rfl | hx
      · exact p2.checked _ c1
      · exact c2 x hx

/-- The search over all declared types: it ends, reports only cycles, and reports one if there is one. -/
theorem search_spec {S : Schemas} (hr : Resolved S ((typeEntries S).map Prod.fst)) :
    ∃ st, checkAll S ((typeEntries S).length + 1) ((typeEntries S).map Prod.fst) ⟨[], [], [], []⟩ = .ok st ∧
      (∀ e ∈ st.errors, CycleReport (Edge S) e) ∧
      (st.errors = [] → ∀ k, ¬ Relation.TransGen (Edge S) k k) := by
  obtain ⟨st, h1, h2, h3⟩ := checkAll_spec hr ((typeEntries S).length + 1) (by simp) _ (fun _ h => h)
    ⟨[], [], [], []⟩ ⟨rfl, List.nodup_nil, fun _ h => (nomatch h), trivial, fun _ h => (nomatch h), fun _ => trivial⟩ rfl
  refine ⟨st, h1, h2.inv.errors, ?_⟩
  intro he k hc
  have hk : k ∈ (typeEntries S).map Prod.fst := by
    obtain ⟨y, hy, -⟩ := Relation.TransGen.head'_iff.mp hc
    rw [← allTypes_isSome]
    cases h : allTypes S k with
    | some _ => rfl
    | none => simp only [Edge, succs, h] at hy; cases hy
  exact not_cycle_of_acc ((h2.inv.topo he).acc (h3 k hk)) hc

/-- For schemas which pass the first phase, the search explores the relation of the specification. -/
theorem resolved_of_ok {S : Schemas} (hl : S.Loaded)
    (hn : ∀ e ∈ S, (e.2.declarations.map (fun d => d.name.snakeCase)).Nodup)
    (hd : ∀ e ∈ S, ∀ d ∈ e.2.declarations, S.DeclarationOk e.1 e.2 d) :
    Resolved S ((typeEntries S).map Prod.fst) ∧ ∀ k k', Edge S k k' ↔ S.Contains k k' := by
  have edge : ∀ k k', Edge S k k' ↔ S.Contains k k' := by
    intro k k'
    unfold Edge succs Schemas.Contains
    constructor
    · intro h
      split at h
      · cases h
      · next s d he =>
        obtain ⟨ns, hdec⟩ := allTypes_some he
        obtain ⟨f, hf, hm⟩ := List.mem_flatMap.mp h
        have hns : k.1 = ns.key := by rw [hdec.2.2]
        rw [hns, mem_typeTarget (hl.importNames _ hdec.1)] at hm
        exact ⟨ns, s, d, hdec, f, hf, hm⟩
    · rintro ⟨ns, s, d, hdec, f, hf, hm⟩
      rw [Declares.allTypes hl hn hdec]
      have hns : k.1 = ns.key := by rw [hdec.2.2]
      refine List.mem_flatMap.mpr ⟨f, hf, ?_⟩
      rw [hns, mem_typeTarget (hl.importNames _ hdec.1)]
      exact hm
  refine ⟨⟨fun k hk => allTypes_isSome.mpr hk, ?_, ?_⟩, edge⟩
  · intro k _ k' hk'
    obtain ⟨ns, s, d, hdec, f, hf, i, n, hm, hr⟩ := (edge k k').mp hk'
    obtain ⟨k'', hr', hex⟩ := (hd _ hdec.1 _ hdec.2.1).types f hf i n hm
    have : k'' = k' := by
      cases i with
      | none => exact (show k'' = _ from hr').trans (show k' = _ from hr).symm
      | some i =>
        obtain ⟨e, he, h1, m, h2, rfl⟩ := hr
        obtain ⟨e', he', h1', m', h2', rfl⟩ := hr'
        have := eq_of_nodup_map (hl.importNames _ hdec.1) he he' (h1.trans h1'.symm)
        subst this
        rw [h2] at h2'; cases h2'; rfl
    subst this
    exact allTypes_isSome.mp (allTypes_isSome_iff.mpr hex)
  · intro k s d hk f hf i n hm
    obtain ⟨ns, hdec⟩ := allTypes_some hk
    obtain ⟨k', ⟨e, he, h1, m, h2, -⟩, -⟩ := (hd _ hdec.1 _ hdec.2.1).types f hf (some i) n hm
    exact ⟨e.2, lookupIdent_of_mem (hl.importNames _ hdec.1) he h1, by rw [h2]; simp⟩

theorem transGen_congr {E E' : TypeKey → TypeKey → Prop} (h : ∀ a b, E a b ↔ E' a b) : E = E' := by
  funext a b; exact propext (h a b)

/-- The whole validator. -/
theorem validate_spec {S : Schemas} (hl : S.Loaded) :
    ∃ es, validate S = .ok es ∧ (es = [] ↔ S.WellFormed) ∧
      ((∀ e ∈ S, (e.2.declarations.map (fun d => d.name.snakeCase)).Nodup) →
        (∀ e ∈ S, ∀ d ∈ e.2.declarations, S.DeclarationOk e.1 e.2 d) → ∀ e ∈ es, CycleReport S.Contains e) := by
  obtain ⟨es, h1, h2⟩ := checkSchemas_spec hl S (fun _ h => h)
  unfold validate
  rw [h1]
  cases es with
  | cons e es =>
    refine ⟨_, rfl, ⟨fun h => (nomatch h), ?_⟩, ?_⟩
    · intro hw
      exact nomatch h2.mpr ⟨hw.names, hw.declarations⟩
    · intro hn hd
      exact nomatch h2.mpr ⟨hn, hd⟩
  | nil =>
    obtain ⟨hn, hd⟩ := h2.mp rfl
    obtain ⟨hr, he⟩ := resolved_of_ok hl hn hd
    obtain ⟨st, h3, h4, h5⟩ := search_spec hr
    dsimp only
    rw [h3]
    have hE := transGen_congr he
    rw [hE] at h4 h5
    refine ⟨st.errors, rfl, ?_, fun _ _ => h4⟩
    constructor
    · intro h; exact ⟨hn, hd, h5 h⟩
    · intro hw
      cases hs : st.errors with
      | nil => rfl
      | cons e l =>
        obtain ⟨p, k, -, -, -, hc⟩ := h4 e (by rw [hs]; exact List.mem_cons_self)
        exact absurd hc (hw.acyclic k)

end Typical

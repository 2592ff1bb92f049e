import Verif.Gen.Moves

/-!
# Generated Rust code does not use values which were moved: the functions of declarations
-/

namespace Typical.Gen

@[simp] theorem setAll_nil (κ : Var → Bool) (b : Bool) : setAll κ [] b = κ := by
  funext w
  simp [setAll]

@[simp] theorem hide_none (M : List Place) : hide [] M = M := by simp [hide]

@[simp] theorem leave_none (M N : List Place) : leave [] M N = N := by simp [leave]

theorem flowArgs_nil (κ : Var → Bool) (M : List Place) (ps : List Param) : flowArgs κ M ps (args []) = some M := by simp [args, flowArgs]

theorem flowArgs_cons (κ : Var → Bool) (M : List Place) (ps : List Param) (e : Ex) (es : List Ex) :
    flowArgs κ M ps (args (e :: es)) = (flow κ M (takesFirst ps) e).bind fun M => flowArgs κ M ps.tail (args es) := by simp [args, flowArgs]

theorem flowArgs_plain (κ : Var → Bool) (M : List Place) (e : Ex) (es : List Ex) :
    flowArgs κ M [] (args (e :: es)) = (flow κ M true e).bind fun M => flowArgs κ M [] (args es) := flowArgs_cons κ M [] e es

theorem hide_of {vs : List Var} {M : List Place} (h : ∀ p ∈ M, p.1 ∉ vs) : hide vs M = M := by
  simp only [hide, List.filter_eq_self]
  intro p hp
  simpa using h p hp

theorem again_of {vs : List Var} {M N : List Place} (h : ∀ p ∈ N, p.1 ∈ vs ∨ p ∈ M) : again vs M N = some M := by
  unfold again
  rw [if_pos]
  simp only [List.all_eq_true, hide, List.mem_filter]
  rintro p ⟨h1, h2⟩
  rcases h p h1 with h | h
  · simp [h] at h2
  · simpa using h

/-- A place which does not meet those which were moved. -/
theorem usePlace_fresh {κ : Var → Bool} {M : List Place} {p : Place} (b : Bool) (h : ∀ q ∈ M, p.meets q = false) :
    usePlace κ M b p = some (if b && κ p.1 then p :: M else M) := by
  have : M.any p.meets = false := by
    rw [List.any_eq_false]
    intro q hq
    simp [h q hq]
  unfold usePlace
  rw [this]
  cases b && κ p.1 <;> rfl

theorem meets_root {p q : Place} (h : q.1 ≠ p.1) : p.meets q = false := by simp [Place.meets, Ne.symm h]

theorem usePlace_root {κ : Var → Bool} {M : List Place} {p : Place} (b : Bool) (h : ∀ q ∈ M, q.1 ≠ p.1) :
    usePlace κ M b p = some (if b && κ p.1 then p :: M else M) := usePlace_fresh b fun q hq => meets_root (h q hq)

/-! ### Conversion of messages -/

theorem convertElement_flow : ∀ (t : TypeVariant) (κ : Var → Bool) (M : List Place), κ .x = true → (∀ p ∈ M, p.1 ≠ .x) →
    flow κ M true (convertElement t) = some ((.x, none) :: M)
  | .array _ t, κ, M, h, hM => by
    have e1 : flow κ M true ((v .x).m .intoIter) = some ((.x, none) :: M) := by
      simp [Ex.m, flow, flowArgs, Method.takes, usePlace_root (κ := κ) (p := (.x, none)) true hM, h]
    have e2 : hide [.x] ((.x, none) :: M) = M := by
      have := hide_of (vs := [.x]) (M := M) (by simpa using hM)
      simpa [hide] using this
    have ih := convertElement_flow t (set κ .x true) M (by simp) hM
    have e3 : again [.x] ((.x, none) :: M) ((.x, none) :: M) = some ((.x, none) :: M) := again_of (fun p hp => .inr hp)
    have e4 : ((v .x).m .intoIter).elementMoves = true := rfl
    simp [convertElement, flow, e1, e2, e3, e4, ih]
  | .bool, κ, M, h, hM => by simp [convertElement, Ex.m, flow, flowArgs, Method.takes, usePlace_root (κ := κ) (p := (.x, none)) true hM, h]
  | .bytes, κ, M, h, hM => by simp [convertElement, Ex.m, flow, flowArgs, Method.takes, usePlace_root (κ := κ) (p := (.x, none)) true hM, h]
  | .custom _ _, κ, M, h, hM => by simp [convertElement, Ex.m, flow, flowArgs, Method.takes, usePlace_root (κ := κ) (p := (.x, none)) true hM, h]
  | .f64, κ, M, h, hM => by simp [convertElement, Ex.m, flow, flowArgs, Method.takes, usePlace_root (κ := κ) (p := (.x, none)) true hM, h]
  | .s64, κ, M, h, hM => by simp [convertElement, Ex.m, flow, flowArgs, Method.takes, usePlace_root (κ := κ) (p := (.x, none)) true hM, h]
  | .string, κ, M, h, hM => by simp [convertElement, Ex.m, flow, flowArgs, Method.takes, usePlace_root (κ := κ) (p := (.x, none)) true hM, h]
  | .u64, κ, M, h, hM => by simp [convertElement, Ex.m, flow, flowArgs, Method.takes, usePlace_root (κ := κ) (p := (.x, none)) true hM, h]
  | .unit, κ, M, h, hM => by simp [convertElement, Ex.m, flow, flowArgs, Method.takes, usePlace_root (κ := κ) (p := (.x, none)) true hM, h]

theorem into_flow {κ : Var → Bool} {M M' : List Place} {e : Ex} (t : TypeVariant) (h : flow κ M true e = some M') (hM : ∀ p ∈ M', p.1 ≠ .x) :
    flow κ M true (intoInvocation e t) = some M' := by
  have e1 : ∀ m, m.takes = true → flow κ M true (e.m m) = some M' := by
    intro m hm
    simp [Ex.m, flow, flowArgs, hm, h]
  have e2 : ∀ t : TypeVariant, flow κ M true (.mapVec (e.m .intoIter) .x (convertElement t)) = some M' := by
    intro t
    have e3 := convertElement_flow t (set κ .x true) M' (by simp) hM
    have e4 : ((e).m .intoIter).elementMoves = true := rfl
    have e5 : again [.x] M' ((.x, none) :: M') = some M' := again_of (by simp +contextual)
    simp [flow, e1 .intoIter rfl, hide_of (vs := [.x]) (M := M') (by simpa using hM), e3, e4, e5]
  cases t <;> simp only [intoInvocation] <;> try split
  all_goals first
    | exact e1 .into rfl
    | exact e2 _

theorem structFrom_flow (T : CharTable) (d : Declaration) (κ : Var → Bool) (hκ : κ .message = true) (hn : (d.fields.map (fun f => rustSnake f.name)).Nodup) :
    ∃ N, flow κ [] true (structFrom T d) = some N := by
  simp only [structFrom, flow]
  suffices h : ∀ (fs : List Field) (M : List Place), (fs.map (fun f => rustSnake f.name)).Nodup →
      (∀ p ∈ M, p.1 = .message ∧ ∃ n, p.2 = some n ∧ n ∉ fs.map (fun f => rustSnake f.name)) →
      ∃ N, flowInits κ M (inits (fs.map (fun f =>
        (rustSnake f.name,
         match f.rule with
         | .asymmetric => .std .some (args [intoInvocation (.field (v .message) (rustSnake f.name)) f.type.variant])
         | .optional => .mapOption (.field (v .message) (rustSnake f.name)) .payload (intoInvocation (v .payload) f.type.variant)
         | .required => intoInvocation (.field (v .message) (rustSnake f.name)) f.type.variant)))) = some N from h _ _ hn (by simp)
  intro fs
  induction fs with
  | nil => intro M _ _; exact ⟨M, by simp [inits, flowInits]⟩
  | cons f fs ih =>
    intro M hn hM
    rw [List.map_cons, List.nodup_cons] at hn
    have e1 : flow κ M true (.field (v .message) (rustSnake f.name)) = some ((.message, some (rustSnake f.name)) :: M) := by
      simp only [flow, Ex.place, place_v]
      rw [usePlace_fresh]
      · simp [hκ]
      · intro q hq
        obtain ⟨h1, n, h2, h3⟩ := hM q hq
        simp only [List.map_cons, List.mem_cons, not_or] at h3
        simp [Place.meets, h2, Ne.symm h3.1]
    have hM' : ∀ p ∈ (Var.message, some (rustSnake f.name)) :: M, p.1 = .message ∧ ∃ n, p.2 = some n ∧ n ∉ fs.map (fun f => rustSnake f.name) := by
      intro p hp
      rcases List.mem_cons.mp hp with rfl | hp
      · exact ⟨rfl, _, rfl, hn.1⟩
      · obtain ⟨h1, n, h2, h3⟩ := hM p hp
        exact ⟨h1, n, h2, fun h => h3 (List.mem_cons_of_mem _ h)⟩
    obtain ⟨N, ih⟩ := ih _ hn.2 hM'
    have e2 := into_flow f.type.variant e1 (fun p hp => by rw [(hM' p hp).1]; nofun)
    refine ⟨N, ?_⟩
    rw [List.map_cons, inits, flowInits]
    cases f.rule with
    | asymmetric => simp [flow, flowArgs_nil, flowArgs_cons, e2, ih]
    | required => simp [e2, ih]
    | optional =>
      have e3 : flow (set κ .payload true) ((.message, some (rustSnake f.name)) :: M) true (v .payload) =
          some ((.payload, none) :: (.message, some (rustSnake f.name)) :: M) := by
        rw [flow_v, usePlace_root]
        · simp
        · intro q hq
          rw [(hM' q hq).1]
          nofun
      have e4 := into_flow f.type.variant e3 (by
        intro p hp
        rcases List.mem_cons.mp hp with rfl | hp
        · nofun
        · rw [(hM' p hp).1]; nofun)
      have e5 : hide [.payload] ((.message, some (rustSnake f.name)) :: M) = (.message, some (rustSnake f.name)) :: M := hide_of fun p hp => by
        rw [(hM' p hp).1]; simp
      have e6 : again [.payload] ((.message, some (rustSnake f.name)) :: M) ((.payload, none) :: (.message, some (rustSnake f.name)) :: M) =
          some ((.message, some (rustSnake f.name)) :: M) := again_of fun p hp => by
        rcases List.mem_cons.mp hp with rfl | hp
        · simp
        · exact .inr hp
      have e7 : (Ex.field (v .message) (rustSnake f.name)).use κ = .moved := by simp [Ex.use]
      rw [flow, e1]
      simp [e5, e4, e6, e7, ih]

theorem choiceFrom_flow (T : CharTable) (d : Declaration) (κ : Var → Bool) : ∃ N, flow κ [] true (.matchLines (v .message) (choiceFromArms T d d.fields)) = some N := by
  have e1 : ∃ M, flow κ [] (choiceFromArms T d d.fields).take (v .message) = some M ∧ ∀ p ∈ M, p.1 = .message := by
    rw [flow_v, usePlace_root (κ := κ) (M := []) (p := (.message, none)) _ (by simp)]
    exact ⟨_, rfl, by intro p; split <;> simp +contextual⟩
  obtain ⟨M, e1, hM⟩ := e1
  suffices h : ∀ fs, ∃ N, flowArms κ M (v .message) (choiceFromArms T d fs) = some N by
    obtain ⟨N, h⟩ := h d.fields
    exact ⟨N, by simp [flow, e1, h]⟩
  intro fs
  induction fs with
  | nil => exact ⟨[], by simp [choiceFromArms, flowArms]⟩
  | cons f fs ih =>
    obtain ⟨N, ih⟩ := ih
    generalize hκ : setAll κ (Pat.variant false (rustPascal T d.name (some .out)) (rustPascal T f.name none) (outBinders f)).binders
      ((Pat.variant false (rustPascal T d.name (some .out)) (rustPascal T f.name none) (outBinders f)).moves (v .message)) = κ'
    have hh : hide (Pat.variant false (rustPascal T d.name (some .out)) (rustPascal T f.name none) (outBinders f)).binders M = M := by
      refine hide_of fun p hp => ?_
      rw [hM p hp]
      unfold outBinders
      split <;> split <;> simp [Pat.binders]
    have e2 : ∃ M1, flowArgs κ' M [] (args (if f.type.variant = .unit then [] else [intoInvocation (v .payload) f.type.variant])) = some M1 ∧
        ∀ p ∈ M1, p.1 = .message ∨ p.1 = .payload := by
      split
      · exact ⟨M, flowArgs_nil _ _ _, fun p hp => .inl (hM p hp)⟩
      · have e3 : flow κ' M true (v .payload) = some (if κ' .payload then (.payload, none) :: M else M) := by
          rw [flow_v, usePlace_root (κ := κ') (M := M) (p := (.payload, none)) true (fun q hq => by rw [hM q hq]; nofun)]
          simp
        have hr : ∀ p ∈ (if κ' .payload then (.payload, none) :: M else M), p.1 = .message ∨ p.1 = .payload := by
          intro p
          split
          · intro hp
            rcases List.mem_cons.mp hp with rfl | hp
            · exact .inr rfl
            · exact .inl (hM p hp)
          · exact fun hp => .inl (hM p hp)
        have e4 := into_flow f.type.variant e3 (fun p hp => by rcases hr p hp with h | h <;> rw [h] <;> nofun)
        refine ⟨_, ?_, hr⟩
        rw [flowArgs_plain, e4]
        simp only [Option.bind_some, flowArgs_nil]
    obtain ⟨M1, e2, h1⟩ := e2
    have e3 : ∃ M2, flowArgs κ' M1 [] (args (if f.rule = .optional then [.std .boxNew (args [(Ex.paren (.deref (v .fallback))).m .into])] else [])) = some M2 := by
      split
      · have e4 : flow κ' M1 true (.paren (.deref (v .fallback))) = some (if κ' .fallback then (.fallback, none) :: M1 else M1) := by
          simp only [flow, Ex.place, place_v]
          rw [usePlace_root (κ := κ') (M := M1) (p := (.fallback, none)) true (fun q hq => by rcases h1 q hq with h | h <;> rw [h] <;> nofun)]
          simp
        refine ⟨if κ' .fallback then (.fallback, none) :: M1 else M1, ?_⟩
        rw [flowArgs_plain, flow, flowArgs_plain, Ex.m, flow]
        simp only [Method.takes, e4, bind, Option.bind_some, flowArgs, flowArgs_nil]
      · exact ⟨_, flowArgs_nil _ _ _⟩
    obtain ⟨M2, e3⟩ := e3
    have e5 : ∀ (l l' : List Ex) {M M1 M2}, flowArgs κ' M [] (args l) = some M1 → flowArgs κ' M1 [] (args l') = some M2 → flowArgs κ' M [] (args (l ++ l')) = some M2 := by
      intro l l'
      induction l with
      | nil =>
        intro M M1 M2 h h'
        rw [flowArgs_nil] at h
        cases h
        exact h'
      | cons e l ih =>
        intro M M1 M2 h h'
        rw [flowArgs_plain] at h
        rw [List.cons_append, flowArgs_plain]
        cases h2 : flow κ' M true e with
        | none => rw [h2] at h; cases h
        | some M3 =>
          rw [h2] at h
          exact ih h h'
    refine ⟨leave (Pat.variant false (rustPascal T d.name (some .out)) (rustPascal T f.name none) (outBinders f)).binders M M2 ++ N, ?_⟩
    rw [choiceFromArms, flowArms, hκ, hh, flow, e5 _ _ e2 e3, ih]
    rfl

/-! ### Atlases -/

theorem headerAndPayload_quiet (κ : Var → Bool) (supers : Nat) (f : Field) (h : κ .payloadSize = false) : flow κ [] true (headerAndPayload supers f) = some [] := by
  simp [headerAndPayload, flow, flowArgs_nil, flowArgs_cons, takesFirst, RuntimeFn.signature, usePlace_copied, h]

theorem structFieldSize_quiet (κ : Var → Bool) (supers : Nat) (f : Field) : flow κ [] true (structFieldSize supers f) = some [] := by
  have e1 : ∀ κ : Var → Bool, κ .payloadAtlas = false → flow κ [] true (let' .payloadSize (atlasLookup f.type.variant) (headerAndPayload supers f)) = some [] := by
    intro κ h
    have e2 := headerAndPayload_quiet (set κ .payloadSize false) supers f (by simp)
    simp [let', flow, atlasLookup_quiet κ _ h, atlasLookup_use κ _ h, e2]
  have e2 := e1 (set κ .payloadAtlas false) (by simp)
  unfold structFieldSize
  split
  · simp [flow, flowArgs, Ex.m, Method.takes, Ex.use, e2]
  · rw [let'.eq_1 .payloadAtlas]
    simp [flow, Ex.use, e2]

theorem sizes_quiet (κ : Var → Bool) (supers : Nat) : ∀ fs : List Field, flowArgs κ [] [] (args (fs.map (structFieldSize supers))) = some []
  | [] => flowArgs_nil _ _ _
  | f :: fs => by rw [List.map_cons, flowArgs_plain, structFieldSize_quiet, Option.bind_some, sizes_quiet κ supers fs]

/-- Each of the variables for fields is used once. -/
theorem fieldInits_flow (κ : Var → Bool) (use : Field → Ex) (hu : ∀ κ M f, flow κ M true (use f) = usePlace κ M true (fieldVar f, none)) : ∀ (fs : List Field) (M : List Place), (fs.map (fun f => rustSnake f.name)).Nodup →
    (∀ p ∈ M, ∃ n, p.1 = .field n ∧ n ∉ fs.map (fun f => rustSnake f.name)) →
    ∃ N, flowInits κ M (inits (fs.map (fun f => (rustSnake f.name, use f)))) = some N
  | [], M, _, _ => ⟨M, by simp [inits, flowInits]⟩
  | f :: fs, M, hn, hM => by
    rw [List.map_cons, List.nodup_cons] at hn
    have e1 : usePlace κ M true (fieldVar f, none) = some (if κ (fieldVar f) then (fieldVar f, none) :: M else M) := by
      rw [usePlace_root (κ := κ) (M := M) (p := (fieldVar f, none)) true]
      · simp
      · intro q hq
        obtain ⟨n, h1, h2⟩ := hM q hq
        rw [h1]
        intro h
        cases h
        exact h2 (List.mem_cons_self ..)
    obtain ⟨N, ih⟩ := fieldInits_flow κ use hu fs (if κ (fieldVar f) then (fieldVar f, none) :: M else M) hn.2 (by
      intro p hp
      have : p = (fieldVar f, none) ∨ p ∈ M := by
        split at hp
        · exact List.mem_cons.mp hp
        · exact .inr hp
      rcases this with rfl | hp
      · exact ⟨_, rfl, hn.1⟩
      · obtain ⟨n, h1, h2⟩ := hM p hp
        exact ⟨n, h1, fun h => h2 (List.mem_cons_of_mem _ h)⟩)
    refine ⟨N, ?_⟩
    rw [List.map_cons, inits, flowInits, hu, e1]
    exact ih

theorem let_flow {κ : Var → Bool} {x : Var} {e b : Ex} (h : flow κ [] true e = some []) (hb : ∀ k, ∃ N, flow (set κ x k) [] true b = some N) :
    ∃ N, flow κ [] true (let' x e b) = some N := by
  obtain ⟨N, hb⟩ := hb (e.use κ).moves
  exact ⟨leave [x] [] N, by simp [let', flow, h, hb]⟩

theorem structAtlasLets_flow (supers : Nat) (rest : Ex) : ∀ (fs : List Field) (κ : Var → Bool), κ .self = false → (∀ κ', ∃ N, flow κ' [] true rest = some N) →
    ∃ N, flow κ [] true (structAtlasLets supers rest fs) = some N
  | [], κ, _, hr => hr κ
  | f :: fs, κ, h, hr => by
    rw [structAtlasLets]
    refine let_flow ?_ fun b => structAtlasLets_flow supers rest fs (set κ (fieldVar f) b) (by rw [flag_other]; exact h; nofun) hr
    have e2 := atlasCalculation_quiet supers f.type.variant true (set κ .payload false) (by simp)
    split
    · simp [flow, flowArgs, Ex.m, Method.takes, Ex.place, Ex.use, e2]
    · simp [let', flow, Ex.place, Ex.use, e2]

theorem structAtlas_flow (T : CharTable) (supers : Nat) (d : Declaration) (κ : Var → Bool) (h : κ .self = false)
    (hn : (d.fields.map (fun f => rustSnake f.name)).Nodup) : ∃ N, flow κ [] true (structAtlas T supers d) = some N := by
  have e1 : ∀ κ : Var → Bool, ∃ N, flow κ [] true (Ex.structLit (rustPascal T d.name (some .atlas))
    (.cons "_size".toList (.sumLines (args (d.fields.map (structFieldSize supers))))
      (inits (d.fields.map (fun f => (rustSnake f.name, v (fieldVar f))))))) = some N := by
    intro κ
    obtain ⟨N, e2⟩ := fieldInits_flow κ (fun f => v (fieldVar f)) (fun κ M f => flow_v κ M true _) d.fields [] hn (by simp)
    refine ⟨N, ?_⟩
    rw [flow, flowInits, flow, sizes_quiet]
    exact e2
  unfold structAtlas
  split
  · exact e1 κ
  · exact structAtlasLets_flow supers _ d.fields κ h fun κ' => by rw [flow]; exact e1 κ'

theorem choiceAtlas_flow (T : CharTable) (supers : Nat) (d : Declaration) (κ : Var → Bool) (h : κ .self = false) :
    ∃ N, flow κ [] true (.matchLines (.deref (v .self)) (choiceAtlasArms T supers d d.fields)) = some N := by
  suffices hs : ∀ fs, ∃ N, flowArms κ [] (.deref (v .self)) (choiceAtlasArms T supers d fs) = some N by
    obtain ⟨N, hs⟩ := hs d.fields
    exact ⟨N, by simp [flow, usePlace_copied, h, hs]⟩
  intro fs
  induction fs with
  | nil => exact ⟨[], by simp [choiceAtlasArms, flowArms]⟩
  | cons f fs ih =>
    obtain ⟨N, ih⟩ := ih
    generalize hκ : setAll κ (Pat.variant true (rustPascal T d.name (some .out)) (rustPascal T f.name none) (outBinders f)).binders
      ((Pat.variant true (rustPascal T d.name (some .out)) (rustPascal T f.name none) (outBinders f)).moves (.deref (v .self))) = κ'
    generalize hb : (let' .payloadAtlas (atlasCalculation supers true f.type.variant)
        (let' .payloadSize (.brace (let' .payloadAtlas (.ref (v .payloadAtlas)) (atlasLookup f.type.variant)))
        (if f.rule = .required then
          Ex.variantLit (rustPascal T d.name (some .atlas)) (rustPascal T f.name none)
            (args [headerAndPayload supers f, v .payloadAtlas])
        else
          let' .fallbackAtlas ((v .fallback).m .atlas)
          (.variantLit (rustPascal T d.name (some .atlas)) (rustPascal T f.name none)
            (args [.bin .add (headerAndPayload supers f) ((v .fallbackAtlas).m .size), v .payloadAtlas,
              .std .boxNew (args [v .fallbackAtlas])]))))) = body
    have e1 : ∀ κ : Var → Bool, κ .payload = false → ∃ M, flow κ [] true body = some M := by
      intro κ hp
      rw [← hb]
      have e2 := atlasCalculation_quiet supers f.type.variant true κ hp
      generalize (atlasCalculation supers true f.type.variant) = e at e2
      have e3 := fun κ => atlasLookup_quiet (set κ .payloadAtlas false) f.type.variant (by simp)
      have e4 := fun κ => atlasLookup_use (set κ .payloadAtlas false) f.type.variant (by simp)
      have e5 := fun κ => headerAndPayload_quiet (set κ .payloadSize false) supers f (by simp)
      have e6 := fun κ b => headerAndPayload_quiet (set (set κ .payloadSize false) .fallbackAtlas b) supers f (by simp)
      cases hu : (e.use κ).moves <;> split <;>
        simp [let', flow, e2, hu, e3, e4, e5, e6, Ex.use, flowArgs_nil, flowArgs_cons, usePlace, Ex.m, Method.takes, Place.meets, flowArgs]
    have e7 : ∃ M, flow κ' [] true (.block (unitPayload f body)) = some M := by
      rw [flow, unitPayload]
      split
      · obtain ⟨M, h⟩ := e1 (set κ' .payload false) (by simp)
        exact ⟨leave [.payload] [] M, by simp [let', flow, Ex.use, h]⟩
      · rename_i hne
        refine e1 κ' ?_
        rw [← hκ]
        simp [setAll, Pat.binders, outBinders, hne, Pat.moves]
    obtain ⟨M, e7⟩ := e7
    refine ⟨leave (Pat.variant true (rustPascal T d.name (some .out)) (rustPascal T f.name none) (outBinders f)).binders [] M ++ N, ?_⟩
    rw [choiceAtlasArms, flowArms, hκ, hide_nil, hb, e7, ih]
    rfl

theorem choiceSize_flow (T : CharTable) (d : Declaration) (κ : Var → Bool) (h : κ .self = false) :
    ∃ N, flow κ [] true (.matchLines (.deref (v .self)) (choiceSizeArms T d d.fields)) = some N := by
  suffices hs : ∀ fs, ∃ N, flowArms κ [] (.deref (v .self)) (choiceSizeArms T d fs) = some N by
    obtain ⟨N, hs⟩ := hs d.fields
    exact ⟨N, by simp [flow, usePlace_copied, h, hs]⟩
  intro fs
  induction fs with
  | nil => exact ⟨[], by simp [choiceSizeArms, flowArms]⟩
  | cons f fs ih =>
    obtain ⟨N, ih⟩ := ih
    refine ⟨N, ?_⟩
    rw [choiceSizeArms, flowArms, ih]
    simp [flow, usePlace, setAll, Pat.binders, Pat.moves]

/-! ### Serialization -/

theorem headerThen_quiet {κ : Var → Bool} (supers : Nat) (f : Field) {rest : Ex} (h2 : κ .payloadAtlas = false)
    (hr : flow κ [] true rest = some []) : flow κ [] true (headerThen supers f rest) = some [] := by
  simp [headerThen, tryThen, flow, flowArgs_nil, flowArgs_cons, takesFirst, RuntimeFn.signature, atlasLookup_quiet κ _ h2, hr]

theorem structSerialize_flow (supers : Nat) : ∀ (fs : List Field) (κ : Var → Bool), κ .self = false → κ .atlas = false →
    flow κ [] true (structSerialize supers fs) = some []
  | [], κ, _, _ => by simp [structSerialize, flow, flowArgs_nil, flowArgs_cons]
  | f :: fs, κ, h1, h2 => by
    have ih := structSerialize_flow supers fs κ h1 h2
    have e1 := headerThen_quiet (κ := set (set κ .payload false) .payloadAtlas false) supers f (by simp)
      (serialization_quiet supers f.type.variant true (set (set κ .payload false) .payloadAtlas false) .done (by simp) (by simp) (by simp [flow]))
    rw [structSerialize, flow]
    split
    · simp [flow, Ex.place, ih, e1]
    · simp [let', flow, Ex.place, Ex.use, ih, e1]

theorem choiceSerialize_flow (T : CharTable) (supers : Nat) (d : Declaration) (κ : Var → Bool) (h1 : κ .self = false) (h2 : κ .atlas = false) :
    ∃ N, flow κ [] true (.matchLines (.pair (v .self) (v .atlas)) (choiceSerializeArms T supers d d.fields)) = some N := by
  suffices hs : ∀ fs, ∃ N, flowArms κ [] (.pair (v .self) (v .atlas)) (choiceSerializeArms T supers d fs) = some N by
    obtain ⟨N, hs⟩ := hs d.fields
    exact ⟨N, by simp [flow, usePlace_copied, h1, h2, hs]⟩
  intro fs
  induction fs with
  | nil => exact ⟨[], by simp [choiceSerializeArms, flowArms, flow, Pat.binders]⟩
  | cons f fs ih =>
    obtain ⟨N, ih⟩ := ih
    rw [choiceSerializeArms, flowArms, ih]
    generalize hp : (Pat.variants (rustPascal T d.name (some .out)) (rustPascal T f.name none) (outBinders f)
        (rustPascal T d.name (some .atlas)) (rustPascal T f.name none)
        ([none, some .payloadAtlas] ++ (if f.rule = .required then [] else [some .fallbackAtlas]))) = p
    have hm : p.moves (.pair (v .self) (v .atlas)) = false := by rw [← hp]; rfl
    have ha : .payloadAtlas ∈ p.binders := by
      rw [← hp]
      simp [Pat.binders]
    have hq : f.type.variant ≠ .unit → .payload ∈ p.binders := by
      intro h
      rw [← hp]
      simp [Pat.binders, outBinders, h]
    have hf : f.rule ≠ .required → .fallbackAtlas ∈ p.binders := by
      intro h
      rw [← hp]
      simp [Pat.binders, h]
    rw [hm]
    generalize hκ : setAll κ p.binders false = κ'
    have k2 : κ' .payloadAtlas = false := by rw [← hκ]; simp [setAll, ha]
    have e1 : flow κ' [] true (if f.rule = .required then .std .ok (args [.lit .unit])
         else .method (v .fallback) .serializeWithAtlas (args [v .writer, v .fallbackAtlas])) = some [] := by
      split
      · simp [flow, flowArgs_nil, flowArgs_cons]
      · rename_i h
        have k3 : κ' .fallbackAtlas = false := by rw [← hκ]; simp [setAll, hf h]
        simp [flow, flowArgs_nil, flowArgs_cons, Method.takes, Method.params, takesFirst, usePlace_copied, k3]
    have e2 : flow κ' [] true (serializationInvocation supers true (if f.rule = .required then .std .ok (args [.lit .unit])
         else .method (v .fallback) .serializeWithAtlas (args [v .writer, v .fallbackAtlas])) f.type.variant) = some [] := by
      by_cases hu : f.type.variant = .unit
      · rw [hu, serializationInvocation]
        exact e1
      · exact serialization_quiet supers _ true κ' _ (by rw [← hκ]; simp [setAll, hq hu]) k2 e1
    have e3 := headerThen_quiet supers f k2 e2
    refine ⟨leave p.binders [] [] ++ N, ?_⟩
    rw [flow, hide_nil, e3]
    rfl

/-! ### Deserialization -/

theorem indexArms_flow (T : CharTable) (supers : Nat) (s : Schema) (ns : Namespace) (use : Field → Ex) (κ : Var → Bool) (hs : κ .payloadSize = false)
    (e : Ex) : ∀ fs : List Field, (∀ f ∈ fs, RestOk κ (use f)) → flowArms κ [] e (indexArms T supers s ns use fs) = some []
  | [], _ => by simp [indexArms, flowArms, flow, tryThen, flowArgs_nil, flowArgs_cons, takesFirst, RuntimeFn.signature, usePlace_copied, hs, Pat.binders]
  | f :: fs, hr => by
    have ih := indexArms_flow T supers s ns use κ hs e fs fun f hf => hr f (List.mem_cons_of_mem _ hf)
    have e1 := deserialization_quiet T supers s ns f.type.variant true κ (use f) (fun _ => hs) (hr f (List.mem_cons_self ..))
    rw [indexArms, flowArms, ih]
    simp [flow, Pat.binders, e1]

theorem dispatch_flow (T : CharTable) (supers : Nat) (s : Schema) (ns : Namespace) (use : Field → Ex) (κ : Var → Bool) (hi : κ .index = false)
    (hs : κ .payloadSize = false) (fs : List Field) (hr : ∀ κ', ∀ f ∈ fs, RestOk κ' (use f)) :
    flow κ [] true (dispatch (indexArms T supers s ns use fs)) = some [] := by
  have e1 := indexArms_flow T supers s ns use (set κ .subReader true) (by simp [hs]) (v .index) fs (hr _)
  simp [dispatch, letMut, flow, flowArgs_nil, flowArgs_cons, Ex.place, usePlace_copied, hs, hi, Ex.use, e1]

theorem slots_flow (T : CharTable) (s : Schema) (ns : Namespace) (rest : Ex) : ∀ (fs : List Field) (κ : Var → Bool), (∀ κ', ∃ N, flow κ' [] true rest = some N) →
    ∃ N, flow κ [] true (structSlots T s ns rest fs) = some N
  | [], κ, hr => hr κ
  | f :: fs, κ, hr => by
    obtain ⟨N, ih⟩ := slots_flow T s ns rest fs (set κ (fieldVar f) true) hr
    exact ⟨leave [fieldVar f] [] N, by simp [structSlots, flow, ih]⟩

theorem isNone_quiet (κ : Var → Bool) : ∀ fs : List Field, flowArgs κ [] [] (args (fs.map (fun f => (v (fieldVar f)).m .isNone))) = some []
  | [] => flowArgs_nil _ _ _
  | f :: fs => by
    have e1 : flow κ [] true ((v (fieldVar f)).m .isNone) = some [] := by simp [Ex.m, flow, flowArgs, Method.takes]
    rw [List.map_cons, flowArgs_plain, e1, Option.bind_some, isNone_quiet κ fs]

theorem structDeserialize_flow (T : CharTable) (supers : Nat) (s : Schema) (ns : Namespace) (d : Declaration) (κ : Var → Bool)
    (hn : (d.fields.map (fun f => rustSnake f.name)).Nodup) : ∃ N, flow κ [] true (structDeserialize T supers s ns d) = some N := by
  have e1 : ∀ κ : Var → Bool, ∃ N, flow κ [] true (Ex.std .ok (args [.structLit (rustPascal T d.name (some .in_)) (inits (d.fields.map (fun f =>
    (rustSnake f.name, if f.rule = .required then (v (fieldVar f)).m .unwrap else v (fieldVar f)))))])) = some N := by
    intro κ
    obtain ⟨N, e2⟩ := fieldInits_flow κ (fun f => if f.rule = .required then (v (fieldVar f)).m .unwrap else v (fieldVar f)) (fun κ M f => by
      split
      · simp [Ex.m, flow, flowArgs, Method.takes]
      · exact flow_v κ M true _) d.fields [] hn (by simp)
    refine ⟨N, ?_⟩
    rw [flow, flowArgs_plain, flow, e2]
    exact flowArgs_nil κ N []
  generalize hres : (Ex.std .ok (args [.structLit (rustPascal T d.name (some .in_)) (inits (d.fields.map (fun f =>
    (rustSnake f.name, if f.rule = .required then (v (fieldVar f)).m .unwrap else v (fieldVar f)))))])) = result at e1
  generalize hreq : d.fields.filter (fun f => f.rule == .required) = required
  have e2 : ∀ κ : Var → Bool, ∃ N, flow κ [] true (if required.isEmpty then result else
    .seq (.ifThen (.orLines (args (required.map (fun f => (v (fieldVar f)).m .isNone))))
      (.seq (.return_ (.errMissing supers)) .done)) (.blank result)) = some N := by
    intro κ
    split
    · exact e1 κ
    · obtain ⟨N, e1⟩ := e1 κ
      exact ⟨N, by simp [flow, isNone_quiet, e1]⟩
  have e3 : ∀ κ : Var → Bool, ∃ N, flow κ [] true (Ex.seq (.loop
    (.letPair .index .payloadSize
      (.matchLines (.runtime supers .deserializeFieldHeader (args [.refMut (.deref (v .reader))]))
        (.cons (.ok .header) (v .header) (.cons (.err .err) (breakAtEnd true) .nil)))
      (dispatch (indexArms T supers s ns (fun f => .seq (.mutate (fieldVar f) .getOrInsert (v .payload)) .done) d.fields))))
    (.blank (if required.isEmpty then result else
    .seq (.ifThen (.orLines (args (required.map (fun f => (v (fieldVar f)).m .isNone))))
      (.seq (.return_ (.errMissing supers)) .done)) (.blank result)))) = some N := by
    intro κ
    obtain ⟨N, e2⟩ := e2 κ
    generalize (if required.isEmpty then result else _) = check at e2 ⊢
    obtain ⟨N', h3, h4⟩ := breakAtEnd_quiet (setAll κ [.err] true) true
    have e4 := dispatch_flow T supers s ns (fun f => .seq (.mutate (fieldVar f) .getOrInsert (v .payload)) .done) (set (set κ .index false) .payloadSize false)
      (by simp) (by simp) d.fields (by
        intro κ' f _ κ'' _
        obtain ⟨N, h1, h2⟩ := payload_only κ''
        refine ⟨N, ?_, h2⟩
        simp only [flow, h1, bind, Option.bind_some]
        rw [usePlace_root (κ := κ'') (M := N) (p := (fieldVar f, none)) false (fun q hq => by rw [h2 q hq]; nofun)]
        simp)
    refine ⟨N, ?_⟩
    have e5 : setAll κ [.header] false .header = false := by simp [setAll]
    simp [flow, flowArgs_nil, flowArgs_cons, flowArms, Ex.place, usePlace_copied, Ex.use, Arms.use, Ex.resultMoves, Use.ofBool, Use.or, Pat.binders, Pat.moves,
      breakAtEnd_use, h3, h4, e4, e5, e2]
  unfold structDeserialize
  simp only [hres, hreq]
  split
  · exact e3 κ
  · exact slots_flow T s ns _ d.fields κ fun κ' => by rw [flow]; exact e3 κ'

theorem choiceResult_rest (T : CharTable) (supers : Nat) (d : Declaration) (f : Field) (κ : Var → Bool) : RestOk κ (choiceResult T supers d f) := by
  intro κ' _
  unfold choiceResult
  cases hp : κ' .payload <;> by_cases h1 : f.rule = .optional <;> by_cases h2 : f.type.variant = .unit <;>
    simp [OnlyPayload, h1, h2, let', tryThen, flow, flowArgs_nil, flowArgs_cons, Ex.place, Ex.use, usePlace, hp, Place.meets, leave, hide]

theorem choiceDeserialize_flow (T : CharTable) (supers : Nat) (s : Schema) (ns : Namespace) (d : Declaration) (κ : Var → Bool) :
    ∃ N, flow κ [] true (choiceDeserialize T supers s ns d) = some N := by
  have e4 := dispatch_flow T supers s ns (choiceResult T supers d) (set (set κ .index false) .payloadSize false) (by simp) (by simp) d.fields
    fun κ' f _ => choiceResult_rest T supers d f κ'
  exact ⟨[], by simp [choiceDeserialize, flow, flowArgs_nil, flowArgs_cons, Ex.place, Ex.use, Ex.resultMoves, Use.ofBool, e4]⟩

end Typical.Gen

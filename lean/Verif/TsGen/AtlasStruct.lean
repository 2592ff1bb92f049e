import Verif.TsGen.AtlasType

/-!
# Helper: the generated `atlas` functions of structs
-/

namespace Typical.TsGen

open Gen (NCTy NTy NFields DeclName FieldName Ev)

/-- The names of fields are distinct, also from those of other properties. -/
structure FieldNames (T : CharTable) (l : List Field) : Prop where
  nodup : (l.map (fun f => tsCamel T f.name)).Nodup
  other : ∀ f ∈ l, tsCamel T f.name ∉ ["$size".toList, "$fallback".toList, "$field".toList]

theorem FieldNames.tail {T : CharTable} {f : Field} {l : List Field} (h : FieldNames T (f :: l)) : FieldNames T l :=
  ⟨(List.nodup_cons.mp h.nodup).2, fun g hg => h.other g (List.mem_cons_of_mem _ hg)⟩

theorem FieldNames.ne {T : CharTable} {f : Field} {l : List Field} (h : FieldNames T (f :: l)) {g : Field} (hg : g ∈ l) :
    tsCamel T g.name ≠ tsCamel T f.name := fun e =>
  (List.nodup_cons.mp h.nodup).1 (List.mem_map.mpr ⟨g, hg, e⟩)

theorem local_ne {T : CharTable} {f g : Field} (h : tsCamel T g.name ≠ tsCamel T f.name) : local_ T g ≠ local_ T f := fun e => by
  unfold local_ at e
  injection e with e
  exact h e

/-- The properties of an object with the values of the locals. -/
theorem run_localInits (c : Ctx) (T : CharTable) (val : Field → Val) (s : St) : (l : List Field) →
    (∀ f ∈ l, lookup (local_ T f) s.env = some (val f)) → ∀ (k : List (Str × Val) → M) (κ : Out → St → Option (Out × St)),
    run ((localInits T l).eval c k) s κ = run (k (l.map fun f => (tsCamel T f.name, val f))) s κ
  | [], _, k, κ => by
    unfold localInits
    rw [run_inits_nil]; rfl
  | f :: l, h, k, κ => by
    unfold localInits
    rw [run_inits_cons, TsGen.v, run_var, run_get, h f (List.mem_cons_self ..), optK_some, thenK_val]
    exact run_localInits c T val s l (fun g hg => h g (List.mem_cons_of_mem _ hg)) _ κ

theorem member_locals {T : CharTable} (val : Field → Val) : {l : List Field} → FieldNames T l → ∀ f ∈ l,
    member (tsCamel T f.name) (l.map fun f => (tsCamel T f.name, val f)) = some (val f)
  | g :: l, hN, f, hf => by
    rw [List.map_cons, member]
    cases List.mem_cons.mp hf with
    | inl h => subst h; rw [if_pos rfl]
    | inr h => rw [if_neg (fun e => hN.ne h e.symm)]; exact member_locals val hN.tail f h

section
variable {T : CharTable} {S : Schemas} {P : Prog}

/-- The size of a field. -/
def slotSize (i : Nat) (t : Ty) : Option (Ts.TAtlas t) → Nat
  | none => 0
  | some a => Ts.fieldHeaderSize i (Ts.tSize t a) t.integerEncoded + Ts.tSize t a

/-- The statement for a field of a struct. -/
theorem exec_structFieldAtlas {ns ns' : Namespace} {s : Schema} {path : List Str} (hc : P.Clear path) (f : Field) (t : NTy)
    (ht : NamedType T S ns s f.type.variant t) (ih : AtlasOk T S P ns s f.type.variant t)
    (hr : Resolves T S P path s ns ns' f.type.variant) (slot : Slot (f.rule.mayOmit .out) (t.erase.Msg .out))
    (o : List (Str × Val)) (H : Part) (w : Val) (hw : member (tsCamel T f.name) o = some w) (hm : slotRep (tRep .out H t) (f.rule.mayOmit .out) slot w)
    (env : Env) (h : List Obj) (sc : Nat → UInt8) (hH : H.In h) (size : Nat)
    (e1 : lookup .message env = some (.obj o)) (e2 : lookup .size env = some (natV size)) (e3 : assignable .size env = true)
    (e4 : assignable (local_ T f) env = true) (e5 : lookup (local_ T f) env = some .undef) :
    ∃ va h', h <+: h' ∧ slotRep (tAtl (from_ h.length h') t) (f.rule.mayOmit .out) (Slot.map (Ts.tAtlas t.erase) slot) va ∧
      Ev fun n => (structFieldAtlas T s ns' f).exec (ctx P path n) ⟨env, h, sc⟩ =
        some (.val .undef, ⟨update .size (natV (size + slotSize f.index t.erase (Slot.get? (Slot.map (Ts.tAtlas t.erase) slot)))) (update (local_ T f) va env), h', sc⟩) := by
  obtain ⟨fr, fc, rule, name, ft, index⟩ := f
  have hie := ht.integerEncoded
  simp only [local_] at hw hie e4 e5 ⊢
  change NamedType T S ns s ft.variant t at ht
  have here : ∀ (m : t.erase.Msg .out), tRep .out H t m w → rule ≠ .optional → ∃ va h', h <+: h' ∧ tAtl (from_ h.length h') t (Ts.tAtlas t.erase m) va ∧
      Ev fun n => (structFieldAtlas T s ns' ⟨fr, fc, rule, name, ft, index⟩).exec (ctx P path n) ⟨env, h, sc⟩ =
        some (.val .undef, ⟨update .size (natV (size + (Ts.fieldHeaderSize index (Ts.tSize t.erase (Ts.tAtlas t.erase m)) t.erase.integerEncoded +
          Ts.tSize t.erase (Ts.tAtlas t.erase m)))) (update (.field (tsCamel T name)) va env), h', sc⟩) := by
    intro m hm hrule
    obtain ⟨va, h', h1, h2, N, h3⟩ := ih ns' path true m w ((.payloadAtlas, .let_ .undef) :: (.payload, .const w) :: (.payloadSize, .uninit) :: env) h sc H
      hc hr hm hH (by tsrun) (by tsrun)
    rw [atlasOf_true] at h2
    refine ⟨va, h', h1, h2, N + 17, fun n hn => ?_⟩
    refine (run_done _ _).symm.trans ?_
    cases rule with
    | optional => exact absurd rfl hrule
    | _ =>
      unfold structFieldAtlas
      tsrun [atlasCalculation_declared, messageField, e1, run_member hw]
      refine (run_eq (h3 n (by omega)) _).trans ?_
      tsrun [local_, e4]
      rw [run_atlasLookup ht h2 (by tsrun)]
      tsrun [e2, e3, headerSize, hie, lookup_setCell_ne, assignable_setCell_ne, ne_eq, hc.runtime, run_eq (callFn_fieldHeaderSize hc.top (show 17 ≤ n by omega) _ _ _ _)]
  cases rule with
  | optional =>
    change Option _ at slot
    cases slot with
    | none =>
      refine ⟨.undef, h, List.prefix_rfl, rfl, .of fun n => ?_⟩
      cases (show w = .undef from hm)
      refine (run_done _ _).symm.trans ?_
      unfold structFieldAtlas
      tsrun [atlasCalculation_declared, messageField, e1, run_member hw, strictEq]
      rw [update_self env e4 e5]
      show _ = some (Out.val Val.undef, St.mk (update .size (natV (size + 0)) env) h sc)
      rw [Nat.add_zero, update_self env e3 e2]
    | some m =>
      change tRep .out H t m w at hm
      obtain ⟨va, h', h1, h2, N, h3⟩ := ih ns' path true m w ((.payloadSize, .uninit) :: (.payloadAtlas, .let_ .undef) :: (.payload, .const w) :: env) h sc H
        hc hr hm hH (by tsrun) (by tsrun)
      rw [atlasOf_true] at h2
      have hu : w ≠ .undef := fun e => tRep_undef t m (e ▸ hm)
      refine ⟨va, h', h1, h2, N + 17, fun n hn => ?_⟩
      refine (run_done _ _).symm.trans ?_
      unfold structFieldAtlas
      tsrun [atlasCalculation_declared, messageField, e1, run_member hw, strictEq_undef hu]
      refine (run_eq (h3 n (by omega)) _).trans ?_
      tsrun [local_, e4]
      rw [run_atlasLookup ht h2 (by tsrun)]
      tsrun [e2, e3, headerSize, hie, lookup_setCell_ne, assignable_setCell_ne, ne_eq, hc.runtime,
        run_eq (callFn_fieldHeaderSize hc.top (show 17 ≤ n by omega) _ _ _ _)]
      rfl
  | _ =>
    obtain ⟨va, h', h1, h2, h3⟩ := here slot hm nofun
    exact ⟨va, h', h1, h2, h3⟩

/-- The statements for the fields of a struct. -/
theorem exec_structFieldsAtlas {ns ns' : Namespace} {s : Schema} {path : List Str} (hc : P.Clear path) (o : List (Str × Val)) (H : Part)
    (sc : Nat → UInt8) : (l : List Field) → (fs : NFields) →
    FieldsHave T (fun tv t => NamedType T S ns s tv t ∧ AtlasOk T S P ns s tv t) l fs → FieldNames T l →
    (∀ f ∈ l, Resolves T S P path s ns ns' f.type.variant) → (m : fs.erase.Struct .out) → sRep .out H fs m o →
    ∀ (env : Env) (h : List Obj) (size : Nat), H.In h → lookup .message env = some (.obj o) → lookup .size env = some (natV size) →
    assignable .size env = true → (∀ f ∈ l, assignable (local_ T f) env = true ∧ lookup (local_ T f) env = some .undef) →
    ∃ env' h', h <+: h' ∧ lookup .size env' = some (natV (size + (Ts.structAtlas fs.erase m).1)) ∧
      (∀ x, x ≠ .size → x ∉ l.map (local_ T) → lookup x env' = lookup x env) ∧ 
      (∀ f ∈ l, ∃ w, lookup (local_ T f) env' = some w) ∧
      (∀ L, (∀ f ∈ l, member (tsCamel T f.name) L = lookup (local_ T f) env') → sAtl (from_ h.length h') fs (Ts.structAtlas fs.erase m).2 L) ∧
      Ev fun n => (Stms.ofList (l.flatMap (fun f => [.blank, structFieldAtlas T s ns' f]))).exec (ctx P path n) ⟨env, h, sc⟩ =
        some (.val .undef, ⟨env', h', sc⟩)
  | [], _, .nil, _, _, _, _, env, h, size, _, _, e2, _, _ =>
    ⟨env, h, List.prefix_rfl, e2, fun _ _ _ => rfl, nofun, fun _ _ => trivial, .of fun n => rfl⟩
  | f :: l, _, .cons (t := t) (fs := fs) ⟨ht, ih⟩ hF, hN, hr, m, hm, env, h, size, hH, e1, e2, e3, e4 => by
    obtain ⟨slot, m⟩ := m
    obtain ⟨⟨w, hw, hm1⟩, hm2⟩ := hm
    obtain ⟨va, h1, hp1, hva, hev1⟩ := exec_structFieldAtlas hc f t ht ih (hr f (List.mem_cons_self ..)) slot o H w hw hm1 env h sc hH size e1 e2 e3
      (e4 f (List.mem_cons_self ..)).1 (e4 f (List.mem_cons_self ..)).2
    have hlen := prefix_length hp1
    have hs : ∀ g : Field, local_ T g ≠ .size := fun g => nofun
    have ha : ∀ x, assignable x (update (local_ T f) va env) = assignable x env :=
      fun x => assignable_update' x va (e4 f (List.mem_cons_self ..)).1
    have hnot : local_ T f ∉ l.map (local_ T) := by
      rw [List.mem_map]
      rintro ⟨g, hg, e⟩
      exact local_ne (hN.ne hg) e
    have hs' : local_ T f ≠ .message := nofun
    obtain ⟨env', h', hp2, k1, k2, k3, k4, hev2⟩ := exec_structFieldsAtlas hc o H sc l fs hF hN.tail
      (fun g hg => hr g (List.mem_cons_of_mem _ hg)) m hm2 (update .size (natV (size + slotSize f.index t.erase (Slot.get? (Slot.map (Ts.tAtlas t.erase) slot)))) (update (local_ T f) va env)) h1 _ (hH.prefix hp1)
      ((lookup_setCell_ne (show TVar.message ≠ .size from nofun) _ _).trans ((lookup_setCell_ne hs'.symm _ _).trans e1)) (lookup_update _ _ ((ha _).trans e3))
      (assignable_update _ _ ((ha _).trans e3))
      (fun g hg => ⟨(assignable_setCell_ne (hs g) _ _).trans ((ha _).trans (e4 g (List.mem_cons_of_mem _ hg)).1),
        (lookup_setCell_ne (hs g) _ _).trans ((lookup_setCell_ne (local_ne (hN.ne hg)) _ _).trans (e4 g (List.mem_cons_of_mem _ hg)).2)⟩)
    have hlf : lookup (local_ T f) env' = some va :=
      (k2 _ (hs f) hnot).trans ((lookup_setCell_ne (hs f) _ _).trans (lookup_update _ _ (e4 f (List.mem_cons_self ..)).1))
    refine ⟨env', h', hp1.trans hp2, ?_, ?_, ?_, ?_, (hev1.and hev2).mono fun n ⟨q1, q2⟩ => ?_⟩
    · rw [k1, Nat.add_assoc]; rfl
    · intro x hx hx'
      rw [List.map_cons, List.mem_cons, not_or] at hx'
      exact (k2 x hx hx'.2).trans ((lookup_setCell_ne hx _ _).trans (lookup_setCell_ne hx'.1 _ _))
    · intro g hg
      cases List.mem_cons.mp hg with
      | inl e => subst e; exact ⟨_, hlf⟩
      | inr e => exact k3 g e
    · intro L hL
      refine ⟨⟨va, (hL f (List.mem_cons_self ..)).trans hlf, ?_⟩, ?_⟩
      · exact slotRep_imp (fun a v hv => tAtl_mono (from_le (Nat.le_refl _) hp2) t a v hv) hva
      · exact sAtl_mono (from_le hlen List.prefix_rfl) fs _ _ (k4 L fun g hg => hL g (List.mem_cons_of_mem _ hg))
    · refine (run_done _ _).symm.trans ?_
      tsrun [List.flatMap_cons]
      refine (run_eq q1 _).trans ?_
      tsrun
      exact (run_done _ _).trans q2

theorem declared_ofList_nil {l : List Stm} (h : ∀ x ∈ l, x.declared = []) : (Stms.ofList l).declared = [] := by
  induction l with
  | nil => rfl
  | cons x l ih =>
    rw [Stms.ofList, Stms.declared, h x (List.mem_cons_self ..), ih fun y hy => h y (List.mem_cons_of_mem _ hy)]
    rfl

theorem structFieldAtlas_declared (s : Schema) (ns : Namespace) (f : Field) : (structFieldAtlas T s ns f).declared = [] := rfl

theorem declareLocals_declared (l : List Field) : (declareLocals T l).declared = l.map (local_ T) := by
  unfold declareLocals
  cases l with
  | nil => rfl
  | cons f l => simp [Stms.ofList, Stms.declared, Stm.declared]

/-- The variables for fields which are declared. -/
theorem exec_declareAll (h : List Obj) (sc : Nat → UInt8) (env : Env) : (xs : List TVar) → xs.Nodup → (pre : Env) → (∀ x ∈ xs, ∀ p ∈ pre, p.1 ≠ x) →
    M.declareAll xs (xs.map fun _ => .let_ .undef) ⟨pre ++ xs.map (fun x => (x, .uninit)) ++ env, h, sc⟩ =
      some (.val .undef, ⟨pre ++ xs.map (fun x => (x, .let_ .undef)) ++ env, h, sc⟩)
  | [], _, pre, _ => rfl
  | x :: xs, hn, pre, hp => by
    have hx : ∀ (pre : Env), (∀ p ∈ pre, p.1 ≠ x) → ∀ rest, uninit x (pre ++ (x, .uninit) :: rest) = true ∧
        setCell x (.let_ .undef) (pre ++ (x, .uninit) :: rest) = pre ++ (x, .let_ .undef) :: rest := by
      intro pre
      induction pre with
      | nil => intro _ rest; simp [uninit, setCell, Cell.isUninit]
      | cons p pre ih =>
        intro hp rest
        obtain ⟨y, c⟩ := p
        have hy : ¬x = y := fun e => hp _ (List.mem_cons_self ..) e.symm
        have := ih (fun p hp' => hp p (List.mem_cons_of_mem _ hp')) rest
        simp [uninit, setCell, hy, this]
    have hx := hx pre (fun p hp' => hp x (List.mem_cons_self ..) p hp') (xs.map (fun x => (x, .uninit)) ++ env)
    refine (run_done _ _).symm.trans ?_
    rw [List.nodup_cons] at hn
    simp only [List.map_cons, List.append_assoc, List.cons_append]
    rw [run_declareAll_cons, run_declare, hx.1, okK_true, thenK_val, run_done, hx.2]
    have := exec_declareAll h sc env xs hn.2 (pre ++ [(x, .let_ .undef)]) (by
      intro y hy p hp'
      rw [List.mem_append] at hp'
      cases hp' with
      | inl hp' => exact hp y (List.mem_cons_of_mem _ hy) p hp'
      | inr hp' =>
        rw [List.mem_singleton] at hp'
        subst hp'
        intro e
        exact hn.1 (by rw [show x = y from e]; exact hy))
    simpa using this

theorem exec_declareLocals (c : Ctx) {l : List Field} (hN : FieldNames T l) (h : List Obj) (sc : Nat → UInt8) (x : TVar) (w : Cell) (hx : ∀ f, local_ T f ≠ x) (env : Env) :
    (declareLocals T l).exec c ⟨(x, w) :: (l.map (local_ T)).map (fun x => (x, .uninit)) ++ env, h, sc⟩ =
      some (.val .undef, ⟨(x, w) :: (l.map (local_ T)).map (fun x => (x, .let_ .undef)) ++ env, h, sc⟩) := by
  have hnd : (l.map (local_ T)).Nodup := by
    rw [List.Nodup, List.pairwise_map]
    have := hN.nodup
    rw [List.Nodup, List.pairwise_map] at this
    refine this.imp fun hab e => hab ?_
    unfold local_ at e
    injection e
  have := exec_declareAll h sc env (l.map (local_ T)) hnd [(x, w)] (by
    intro y hy p hp
    rw [List.mem_singleton] at hp
    subst hp
    rw [List.mem_map] at hy
    obtain ⟨f, _, rfl⟩ := hy
    exact (hx f).symm)
  cases l with
  | nil => rfl
  | cons f l =>
    refine (run_done _ _).symm.trans ?_
    simp only [declareLocals, List.isEmpty_cons, if_neg Bool.false_ne_true, stms, Stms.ofList]
    rw [run_stms_cons, run_letVars]
    refine (run_eq this _).trans ?_
    tsrun
end

end Typical.TsGen

import Verif.TsGen.AtlasStruct

/-!
# Helper: the generated `atlas` functions
-/

namespace Typical.TsGen

open Gen (NCTy NTy NFields DeclName FieldName Ev)

/-- The code generated for a declaration is at its place in the program, and the names in it refer to what they should refer to. -/
structure Ready (T : CharTable) (S : Schemas) (P : Prog) (ns : Namespace) (s : Schema) (d : Declaration) (ns' : Namespace) : Prop where
  code : P.code (declPath T ns.components d) = some (declCode T s ns' d).body
  clear : P.Clear (declPath T ns.components d)
  resolves : ∀ f ∈ d.fields, Resolves T S P (declPath T ns.components d) s ns ns' f.type.variant
  names : FieldNames T d.fields

/-- The program consists of the generated code. -/
def Implements (T : CharTable) (S : Schemas) (P : Prog) : Prop := ∀ k ns s d, S.Declares k ns s d → ∃ ns', Ready T S P ns s d ns'

section
variable {T : CharTable} {S : Schemas} {P : Prog}

theorem local_ne_of {x : TVar} (h : ∀ n, x ≠ .field n) (f : Field) : local_ T f ≠ x := fun e => h _ e.symm

theorem local_size (f : Field) : local_ T f ≠ .size := nofun
theorem local_message (f : Field) : local_ T f ≠ .message := nofun

theorem locals_nodup {l : List Field} (hN : FieldNames T l) : (l.map (local_ T)).Nodup := by
  rw [List.Nodup, List.pairwise_map]
  have := hN.nodup
  rw [List.Nodup, List.pairwise_map] at this
  refine this.imp fun hab e => hab ?_
  unfold local_ at e
  injection e

theorem not_local {l : List Field} {x : TVar} (h : ∀ f, local_ T f ≠ x) : x ∉ l.map (local_ T) := by
  rw [List.mem_map]
  rintro ⟨f, _, e⟩
  exact h f e

theorem run_optBlank (c : Ctx) (b : Bool) (s : St) (κ : Out → St → Option (Out × St)) :
    run (Stms.exec c (if b then .nil else .cons .blank .nil)) s κ = κ (.val .undef) s := by
  cases b <;> tsrun

theorem structAtlas_declared (s : Schema) (ns : Namespace) (l : List Field) : (structAtlas T s ns l).declared = .size :: l.map (local_ T) := by
  unfold structAtlas
  have : (Stms.ofList (l.flatMap (fun f => [Stm.blank, structFieldAtlas T s ns f]))).declared = [] := by
    apply declared_ofList_nil
    intro x hx
    rw [List.mem_flatMap] at hx
    obtain ⟨f, _, hx⟩ := hx
    simp only [List.mem_cons, List.not_mem_nil, or_false] at hx
    rcases hx with rfl | rfl <;> rfl
  simp only [Stms.declared_append, declareLocals_declared, this]
  cases l <;> simp [Stms.ofList, Stms.declared, Stm.declared]

theorem lookup_locals {l : List Field} (w : Val) (env : Env) {f : Field} (hf : f ∈ l) :
    lookup (local_ T f) ((l.map (local_ T)).map (fun x => (x, Cell.let_ w)) ++ env) = some w ∧
    assignable (local_ T f) ((l.map (local_ T)).map (fun x => (x, Cell.let_ w)) ++ env) = true := by
  induction l with
  | nil => cases hf
  | cons g l ih =>
    simp only [List.map_cons, List.cons_append, lookup, assignable]
    by_cases h : local_ T f = local_ T g
    · rw [if_pos h, if_pos h]; exact ⟨rfl, rfl⟩
    · rw [if_neg h, if_neg h]
      cases List.mem_cons.mp hf with
      | inl e => subst e; exact absurd rfl h
      | inr e => exact ih e

theorem lookup_past {l : List Field} (w : Cell) (env : Env) {x : TVar} (hx : ∀ f, local_ T f ≠ x) :
    lookup x ((l.map (local_ T)).map (fun x => (x, w)) ++ env) = lookup x env := by
  induction l with
  | nil => rfl
  | cons g l ih =>
    simp only [List.map_cons, List.cons_append, lookup]
    rw [if_neg (fun e => hx g e.symm)]
    exact ih

theorem atlasFn_struct (k : List Str × Str) (ns : Namespace) (s : Schema) (d : Declaration) (fs : NFields) {ns' : Namespace}
    (hR : Ready T S P ns s d ns') (hd : d.variant = .struct)
    (hF : FieldsHave T (fun tv t => NamedType T S ns s tv t ∧ AtlasOk T S P ns s tv t) d.fields fs) :
    AtlasFnOk P (.struct (declName T ns d) fs) := by
  intro isField m v env h sc H hm hH
  obtain ⟨o, rfl, -, hm⟩ := hm
  obtain ⟨env', h', hp, k1, k2, k3, k4, N, hev⟩ := exec_structFieldsAtlas hR.clear o H sc d.fields fs hF hR.names hR.resolves m hm
    ((.size, .let_ (natV 0)) :: (d.fields.map (local_ T)).map (fun x => (x, Cell.let_ .undef)) ++ [(.message, .let_ (.obj o))]) h 0 hH
    (by rw [List.cons_append, lookup, if_neg nofun, lookup_past _ _ local_message]; rfl) rfl rfl
    (fun f hf => by
      rw [List.cons_append, lookup, assignable, if_neg nofun, if_neg nofun]
      exact ⟨(lookup_locals _ _ hf).2, (lookup_locals _ _ hf).1⟩)
  let val : Field → Val := fun f => (lookup (local_ T f) env').getD .undef
  have hval : ∀ f ∈ d.fields, lookup (local_ T f) env' = some (val f) := by
    intro f hf
    obtain ⟨w, hw⟩ := k3 f hf
    simp only [val, hw, Option.getD_some]
  refine ⟨.obj (("$size".toList, natV (Ts.structAtlas fs.erase m).1) :: d.fields.map fun f => (tsCamel T f.name, val f)), h', hp,
    ⟨_, rfl, rfl, k4 _ fun f hf => ?_⟩, N + 1, fun n hn => ?_⟩
  · rw [member, if_neg (fun e => hR.names.other f hf (by rw [← e]; exact List.mem_cons_self ..)), member_locals val hR.names f hf, hval f hf]
  obtain ⟨n, rfl⟩ : ∃ q, n = q + 1 := ⟨n - 1, by omega⟩
  refine (run_done _ _).symm.trans ?_
  rw [show (NCTy.struct (declName T ns d) fs).path = declPath T ns.components d from rfl, callFn_decl hR.code]
  have hb : (declCode T s ns' d).body .atlas = structAtlas T s ns' d.fields := by simp only [declCode, hd]
  have hnd : (TVar.size :: d.fields.map (local_ T) ++ [TVar.message]).Nodup := by
    rw [List.nodup_append]
    refine ⟨List.nodup_cons.mpr ⟨not_local local_size, locals_nodup hR.names⟩, by simp, ?_⟩
    intro x hx y hy e
    rw [List.mem_singleton] at hy
    subst hy e
    simp only [List.mem_cons, reduceCtorEq, false_or] at hx
    exact not_local local_message hx
  rw [hb, structAtlas_declared, run_frame, if_pos ⟨rfl, hnd⟩]
  unfold structAtlas
  tsrun [Fn.params]
  rw [run_optBlank]
  tsrun
  refine (run_eq (exec_declareLocals (ctx P _ n) hR.names h sc .size (.let_ (natV 0)) local_size _) _).trans ?_
  tsrun
  refine (run_eq (hev n (by omega)) _).trans ?_
  tsrun [k1, Nat.zero_add]
  rw [run_localInits _ T val _ _ hval]
  tsrun

end

end Typical.TsGen

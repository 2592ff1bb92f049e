import Verif.TsGen.AtlasProof

/-!
# Helper: the statements which compute the atlases of payloads
-/

namespace Typical.TsGen

open Gen (NCTy NTy NFields DeclName FieldName Ev)

/-- The statement for the atlas of a payload is correct. -/
def AtlasOk (T : CharTable) (S : Schemas) (P : Prog) (ns : Namespace) (s : Schema) (tv : TypeVariant) (t : NTy) : Prop :=
  ∀ (ns' : Namespace) (path : List Str) (isField : Bool) (m : t.erase.Msg .out) (v : Val) (env : Env) (h : List Obj) (sc : Nat → UInt8) (H : Part),
    P.Clear path → Resolves T S P path s ns ns' tv → tRep .out H t m v → H.In h → lookup .payload env = some v →
    assignable .payloadAtlas env = true →
    ∃ va h', h <+: h' ∧ tAtl (from_ h.length h') t (atlasOf isField t m) va ∧
      Ev fun n => (atlasCalculation T s ns' isField tv).exec (ctx P path n) ⟨env, h, sc⟩ =
        some (.val .undef, ⟨update .payloadAtlas va env, h', sc⟩)

/-- The path of the namespace of a declaration. -/
def _root_.Typical.Gen.NCTy.path : NCTy → List Str
  | .struct n _ => n.mod
  | .choice n _ => n.mod
  | _ => []

/-- The `atlas` function is correct. -/
def AtlasFnOk (P : Prog) (c : NCTy) : Prop :=
  ∀ (isField : Bool) (m : c.erase.Msg .out) (v : Val) (env : Env) (h : List Obj) (sc : Nat → UInt8) (H : Part),
    cRep .out H c m v → H.In h →
    ∃ va h', h <+: h' ∧ cAtl (from_ h.length h') c (Ts.cAtlas isField c.erase m) va ∧
      Ev fun n => callFn P n (.decl c.path .atlas) [v] ⟨env, h, sc⟩ = some (.val va, ⟨env, h', sc⟩)

section
variable {T : CharTable} {S : Schemas} {P : Prog}

theorem atlasOk_unit (ns : Namespace) (s : Schema) : AtlasOk T S P ns s .unit .unit := by
  intro ns' path isField m v env h sc H hc hr hm hH hv ha
  refine ⟨natV 0, h, List.prefix_rfl, rfl, .of fun n => ?_⟩
  refine (run_done _ _).symm.trans ?_
  unfold atlasCalculation
  tsrun [ha]

theorem atlasOk_scalar (ns : Namespace) (s : Schema) (tv : TypeVariant) (c : Scalar) (ht : NamedType T S ns s tv (.scalar c)) :
    AtlasOk T S P ns s tv (.scalar c) := by
  intro ns' path isField m v env h sc H hc hr hm hH hv ha
  cases hm
  refine ⟨_, h, List.prefix_rfl, ?_, 16, fun n hn => exec_atlasScalar hc hn h sc ht isField m hv ha⟩
  cases isField <;> rfl

theorem atlasOk_bytes (ns : Namespace) (s : Schema) : AtlasOk T S P ns s .bytes (.comp .bytes) := by
  intro ns' path isField m v env h sc H hc hr hm hH hv ha
  obtain ⟨r, rfl, h2⟩ := hm
  refine ⟨natV (List.length (α := UInt8) m), h, List.prefix_rfl, rfl, .of fun n => ?_⟩
  refine (run_done _ _).symm.trans ?_
  unfold atlasCalculation
  tsrun [ha, hv, Ex.byteLength, run_buf_byteLength (hH _ _ h2)]

theorem atlasOk_string (ns : Namespace) (s : Schema) : AtlasOk T S P ns s .string (.comp .string) := by
  intro ns' path isField m v env h sc H hc hr hm hH hv ha
  cases hm
  refine ⟨.typed h.length 0 (List.length (α := UInt8) m.bytes), h ++ [.buf m.bytes], prefix_append _ _, ⟨h.length, rfl, ?_⟩, .of fun n => ?_⟩
  · unfold from_
    rw [if_pos (Nat.le_refl _)]
    simp only [List.getElem?_concat_length]
    rfl
  refine (run_done _ _).symm.trans ?_
  unfold atlasCalculation
  tsrun [ha, hv, hc.glob, Method.run]

theorem atlasOk_units (ns : Namespace) (s : Schema) (r : SourceRange) : AtlasOk T S P ns s (.array r .unit) (.comp .units) := by
  intro ns' path isField m v env h sc H hc hr hm hH hv ha
  obtain ⟨r, rfl, h2⟩ := hm
  refine ⟨natV (if isField then Ts.u64FieldSize (UInt64.toNat m) else Ts.varintSizeFromValue (UInt64.toNat m)), h, List.prefix_rfl, ?_, 16, fun n hn => ?_⟩
  · cases isField <;> rfl
  refine (run_done _ _).symm.trans ?_
  unfold atlasCalculation
  rw [if_neg (by simp [sized]), if_pos rfl]
  tsrun [ha, hv, hc.root, run_arr_length (hH _ _ h2), Ex.length, List.length_replicate, atlasU64_declared]
  refine (run_eq (exec_atlasU64 hc hn h sc isField (z := UInt64.toNat m) ?_ ?_) _).trans ?_
  · tsrun
  · tsrun [ha]
  · tsrun

/-- The sum which the loop for an array of scalars computes. -/
theorem foldl_take {α : Type} (f : Nat → α → Nat) {m : List α} {i : Nat} {a : α} (h : m.take (i + 1) = m.take i ++ [a]) :
    (m.take (i + 1)).foldl f 0 = f ((m.take i).foldl f 0) a := by
  rw [h, List.foldl_append]; rfl

theorem atlasOk_scalars (ns : Namespace) (s : Schema) (r : SourceRange) (inner : TypeVariant) (c : Scalar)
    (ht : NamedType T S ns s inner (.scalar c)) : AtlasOk T S P ns s (.array r inner) (.comp (.scalars c)) := by
  intro ns' path isField m v env h sc H hc hr hm hH hv ha
  obtain ⟨r, rfl, h2⟩ := hm
  change List c.Val at m
  refine ⟨natV (Ts.scalarsSize c m), h, List.prefix_rfl, rfl, ?_⟩
  have h3 := hH _ _ h2
  by_cases hf : inner = .f64
  · subst hf
    cases ht
    refine .of fun n => ?_
    refine (run_done _ _).symm.trans ?_
    unfold atlasCalculation
    rw [if_neg (by simp [sized]), if_neg nofun, if_pos rfl]
    tsrun [ha, hv, Ex.length, run_arr_length h3, List.length_map]
    rfl
  have hu : inner ≠ .unit := fun e => by subst e; cases ht
  have hsz : Ts.scalarsSize c m = m.foldl (fun x v => x + Ts.scalarElemSize c v) 0 := by
    cases ht with
    | f64 => exact absurd rfl hf
    | _ => rfl
  have hl := fun c' => Loops.count (cond := fun n => Ex.eval (ctx P path n) (.bin .lt (.var .i) (.prop (.var .oldPayload) "length".toList)))
    (body := fun n => forBody (ctx P path n) (stms [
          .const .payload (.index (TsGen.v .oldPayload) (TsGen.v .i)),
          .let_ .payloadAtlas none (num 0),
          atlasCalculation T s ns' false inner,
          .increase .arraySize (TsGen.v .payloadAtlas)])) (L := m.length)
    (fun i s => s = ⟨(.i, .let_ (natV i)) :: (.arraySize, .let_ (natV ((m.take i).foldl (fun x v => x + Ts.scalarElemSize c v) 0))) ::
      (.oldPayload, .const (.arr r)) :: env, h, sc⟩) ?_ ?_ m.length 0 (Nat.zero_add _) c' 
  rotate_left
  · rintro i s rfl hi
    refine .of fun n => (run_done _ _).symm.trans ?_
    tsrun [run_arr_length h3, List.length_map]
  · rintro i s rfl hi
    refine ⟨_, .undef, rfl, 16, fun n hn => ?_⟩
    have hi' : m[i]? = some m[i] := List.getElem?_eq_getElem hi
    have hm : m.take (i + 1) = m.take i ++ [m[i]] := by rw [List.take_add_one, hi']; rfl
    refine (run_done _ _).symm.trans ?_
    unfold forBody
    tsrun [atlasCalculation_declared, run_arr_index h3 (show (List.map (encScalar c) m)[i]? = some (encScalar c m[i]) by rw [List.getElem?_map, hi']; rfl)]
    refine (run_eq (exec_atlasScalar hc hn h sc ht false m[i] ?_ ?_) _).trans ?_
    · tsrun
    · tsrun
    · tsrun [foldl_take _ hm]
  obtain ⟨s', rfl, hl⟩ := hl _ rfl
  refine hl.ev.mono fun n hn => ?_
  refine (run_done _ _).symm.trans ?_
  unfold atlasCalculation
  rw [if_neg (by rw [ht.sized_scalar]; nofun), if_neg hu, if_neg hf]
  tsrun [ha, hv, Ex.length, run_arr_length h3, List.length_map, run_for]
  refine (run_eq hn _).trans ?_
  tsrun [ha, hsz, List.take_length]

/-- The body of the loop for the atlases of elements. -/
def elementsBody (T : CharTable) (s : Schema) (ns : Namespace) (inner : TypeVariant) : Stms := stms [
  .const .payload (.index (v .oldPayload) (v .i)),
  .letVars [.payloadAtlas],
  atlasCalculation T s ns false inner,
  .expr (.method false (v .elements) .push (args [v .payloadAtlas])),
  .const .payloadSize (atlasLookup inner),
  .increase .size (add (varintSize (.builtin .bigInt (args [v .payloadSize]))) (v .payloadSize))]

theorem run_push {h : List Obj} {r : Nat} {l : List Val} (hr : h[r]? = some (.arr l)) (w : Val) (env : Env) (sc : Nat → UInt8)
    (κ : Out → St → Option (Out × St)) :
    run (Method.run .push (.arr r) [w]) ⟨env, h, sc⟩ κ = κ (.val (natV (l.length + 1))) ⟨env, h.set r (.arr (l ++ [w])), sc⟩ := by
  simp only [Method.run]
  rw [run_withArr, hr]
  rfl

theorem atlasOk_array (ns : Namespace) (s : Schema) (r : SourceRange) (inner : TypeVariant) (c : NCTy)
    (ht : NamedType T S ns s inner (.comp c)) (ih : AtlasOk T S P ns s inner (.comp c)) :
    AtlasOk T S P ns s (.array r inner) (.comp (.array c)) := by
  intro ns' path isField m v env h sc H hc hr hm hH hv ha
  obtain ⟨r, l, rfl, h2, h3⟩ := hm
  change List (c.erase.Msg .out) at m
  have hr' : Resolves T S P path s ns ns' inner := fun i n k hm => hr i n k (.array hm)
  have hlen : m.length = l.length := h3.length_eq
  have hl := fun c' => Loops.count (cond := fun n => Ex.eval (ctx P path n) (.bin .lt (.var .i) (.prop (.var .oldPayload) "length".toList)))
    (body := fun n => forBody (ctx P path n) (elementsBody T s ns' inner)) (L := m.length)
    (fun i s => ∃ g la, s = ⟨(.i, .let_ (natV i)) :: (.size, .let_ (natV (((m.take i).map (Ts.cAtlas false c.erase)).foldl
        (fun size a => size + Ts.varintSizeFromValue (Ts.cSize c.erase a) + Ts.cSize c.erase a) 0))) :: (.elements, .let_ (.arr h.length)) ::
      (.oldPayload, .const (.arr r)) :: env, g, sc⟩ ∧ h ++ [.arr []] ≠ [] ∧ h <+: g ∧ g[h.length]? = some (.arr la) ∧
      List.Forall₂ (cAtl (from_ (h.length + 1) g) c) ((m.take i).map (Ts.cAtlas false c.erase)) la) ?_ ?_ m.length 0 (Nat.zero_add _) c'
  rotate_left
  · rintro i s ⟨g, la, rfl, -, hg, hla, hF⟩ hi
    refine .of fun n => (run_done _ _).symm.trans ?_
    tsrun [run_arr_length (prefix_get hg (hH _ _ h2)), hlen]
  · rintro i s ⟨g, la, rfl, -, hg, hla, hF⟩ hi
    obtain ⟨a, b, e1, e2, e3, e4⟩ := forall₂_get h3 hi
    have hlt : h.length < g.length := (List.getElem?_eq_some_iff.mp hla).1
    obtain ⟨va, g', hg', hva, hev⟩ := ih ns' path false a b
      ((.payload, .const b) :: (.payloadAtlas, .let_ .undef) :: (.payloadSize, .uninit) ::
        (.i, .let_ (natV i)) :: (.size, .let_ (natV (((m.take i).map (Ts.cAtlas false c.erase)).foldl
        (fun size a => size + Ts.varintSizeFromValue (Ts.cSize c.erase a) + Ts.cSize c.erase a) 0))) :: (.elements, .let_ (.arr h.length)) ::
        (.oldPayload, .const (.arr r)) :: env) g sc H hc hr' e3 (hH.prefix hg) (by tsrun) (by tsrun)
    have hla' := prefix_get hg' hla
    have hlt' := prefix_length hg'
    refine ⟨_, .undef, ⟨g'.set h.length (.arr (la ++ [va])), la ++ [va], rfl, by simp, prefix_set (hg.trans hg') (Nat.le_refl _) _,
      get_set (by omega) _, ?_⟩, ?_⟩
    · rw [e4, List.map_append]
      have hle : (from_ (h.length + 1) g').Le (from_ (h.length + 1) (g'.set h.length (.arr (la ++ [va])))) := from_set_le (by omega) _
      refine forall₂_snoc (forall₂_imp (fun x y hxy => cAtl_mono ((from_le (Nat.le_refl _) hg').trans hle) c x y hxy) hF) ?_
      exact cAtl_mono ((from_le (by omega) List.prefix_rfl).trans hle) c _ _ hva
    · obtain ⟨N, hev⟩ := hev
      refine ⟨N + 16, fun n hn => (run_done _ _).symm.trans ?_⟩
      unfold forBody elementsBody
      tsrun [atlasCalculation_declared, run_arr_index (prefix_get hg (hH _ _ h2)) e2]
      refine (run_eq (hev n (by omega)) _).trans ?_
      tsrun [run_push hla']
      rw [run_atlasLookup ht hva (by tsrun)]
      tsrun [hc.root, hc.runtime, run_eq (callFn_varintSizeFromValue P (show 16 ≤ n by omega) _ _)]
      rw [e4, List.map_append, List.foldl_append]
      simp only [List.map_cons, List.map_nil, List.foldl_cons, List.foldl_nil, Nat.add_assoc]
      rfl
  obtain ⟨s', ⟨g, la, rfl, -, hg, hla, hF⟩, hl⟩ := hl _ ⟨h ++ [.arr []], [], rfl, by simp, prefix_append _ _, by simp, .nil⟩
  rw [List.take_length] at hF hl
  refine ⟨_, g, hg, ⟨h.length, la, rfl, ?_, forall₂_imp (fun x y hxy => cAtl_mono (from_le (by omega) List.prefix_rfl) c x y hxy) hF⟩,
    hl.ev.mono fun n hn => ?_⟩
  · unfold from_
    rw [if_pos (Nat.le_refl _)]
    exact hla
  refine (run_done _ _).symm.trans ?_
  unfold atlasCalculation
  rw [if_pos ht.sized_comp]
  tsrun [ha, hv, Ex.length, run_for]
  refine (run_eq hn _).trans ?_
  tsrun [ha]
  rfl

theorem named_path {k : List Str × Str} {c : NCTy} (h : Named T S k c) : ∃ ns s d, S.Declares k ns s d ∧ c.path = declPath T ns.components d := by
  cases h with
  | struct h _ _ => exact ⟨_, _, _, h, rfl⟩
  | choice h _ _ => exact ⟨_, _, _, h, rfl⟩

theorem atlasOk_custom (ns : Namespace) (s : Schema) (i : Option Identifier) (n : Identifier) (k : List Str × Str) (c : NCTy)
    (hk : s.RefersTo ns i n k) (hN : Named T S k c) (ih : AtlasFnOk P c) : AtlasOk T S P ns s (.custom i n) (.comp c) := by
  intro ns' path isField m v env h sc H hc hr hm hH hv ha
  obtain ⟨va, h', h1, h2, N, h3⟩ := ih isField m v env h sc H hm hH
  refine ⟨va, h', h1, h2, N, fun q hq => ?_⟩
  obtain ⟨ns₂, s₂, d₂, hd, hp⟩ := named_path hN
  have hres := hr i n k (.custom _ _) hk ns₂ s₂ d₂ hd
  rw [← hp] at hres
  refine (run_done _ _).symm.trans ?_
  unfold atlasCalculation
  rw [run_assignS, run_path (ctx P path q) _ _ (by exact hres)]
  tsrun [hv, run_eq (h3 q hq), ha]

end

end Typical.TsGen

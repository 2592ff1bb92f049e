import Verif.TsGen.DesProof

/-!
# Helper: the generated statements which deserialize payloads of composite types
-/

namespace Typical.TsGen

open Gen (NCTy NTy NFields DeclName FieldName Ev)

/-- What is deserialized for a payload. -/
def desOf (isField : Bool) : (t : NTy) → Nat → Ts.View → Ts.Res (t.erase.Msg .inn)
  | .unit, _, _ => .ok (0, ())
  | .scalar s, n, w => Ts.orRange (Ts.readScalar isField n w 0 s)
  | .comp c, n, w => Ts.cDeser isField c.erase n w

theorem desOf_true (t : NTy) (n : Nat) (w : Ts.View) : desOf true t n w = Ts.tDeser t.erase n w := by
  cases t <;> rfl

/-- The statements have the effect which the result tells. -/
def Gets (P : Prog) (path : List Str) (code : Stms) (env : Env) (h : List Obj) (sc : Nat → UInt8) (t : NTy) : Ts.Res (t.erase.Msg .inn) → Prop
  | .ok p => ∃ x h', h <+: h' ∧ tRep .inn (from_ h.length h') t p.2 x ∧
      Ends P path code env h sc (.val .undef) (setCell .payload (.let_ x) (setCell .offset (.let_ (natV p.1)) env)) h'
  | .error e => e ≠ .fuel → ∃ env' h', h <+: h' ∧ Ends P path code env h sc (.throw e) env' h'

/-- The statements which deserialize a payload are correct. -/
def DesOk (T : CharTable) (S : Schemas) (P : Prog) (ns : Namespace) (s : Schema) (tv : TypeVariant) (t : NTy) : Prop :=
  ∀ (ns' : Namespace) (path : List Str) (isField : Bool) (k : Nat) (env : Env) (h : List Obj) (sc : Nat → UInt8) (r : Nat) (w : Ts.View),
    P.Clear path → Resolves T S P path s ns ns' tv → Reader .dataView env h r w → lookup .offset env = some (natV 0) → assignable .offset env = true →
    uninit .payload env = true → (isField = true → lookup .payloadSize env = some (natV k)) →
    Gets P path (deserialization T s ns' isField tv) env h sc t (desOf isField t k w)

/-- A call of the `deserializeUnsafe` function has the effect which the result tells. -/
def Returns (P : Prog) (c : NCTy) (env : Env) (h : List Obj) (sc : Nat → UInt8) (r : Nat) (w : Ts.View) : Ts.Res (c.erase.Msg .inn) → Prop
  | .ok p => p.1 = w.len ∧ ∃ x h' sc', h <+: h' ∧ cRep .inn (from_ h.length h') c p.2 x ∧
      Ev fun n => callFn P n (.decl c.path .deserializeUnsafe) [.view r w.base w.len] ⟨env, h, sc⟩ = some (.val x, ⟨env, h', sc'⟩)
  | .error e => e ≠ .fuel → ∃ h' sc', h <+: h' ∧
      Ev fun n => callFn P n (.decl c.path .deserializeUnsafe) [.view r w.base w.len] ⟨env, h, sc⟩ = some (.throw e, ⟨env, h', sc'⟩)

/-- The `deserializeUnsafe` function is correct. -/
def DesFnOk (P : Prog) (c : NCTy) : Prop :=
  ∀ (isField : Bool) (k : Nat) (env : Env) (h : List Obj) (sc : Nat → UInt8) (r : Nat) (w : Ts.View),
    h[r]? = some (.buf w.buf) → w.base + w.len ≤ w.buf.length → Returns P c env h sc r w (Ts.cDeser isField c.erase k w)

theorem deserialization_declared (T : CharTable) (s : Schema) (ns : Namespace) (isField : Bool) (tv : TypeVariant) :
    (deserialization T s ns isField tv).declared = [.payload] := by
  cases tv <;> unfold deserialization <;> repeat (first | rfl | split)
  all_goals simp only [Stms.declared_append, u64Deserialization_declared] <;> rfl

section
variable {h : List Obj} {r : Nat} {b : Bytes} (hr : h[r]? = some (.buf b)) (env : Env) (sc : Nat → UInt8) (κ : Out → St → Option (Out × St))
include hr

theorem run_newView_some {base len : Nat} (hb : base + len ≤ b.length) :
    run (Builtin.construct .dataView [.buf r, natV base, natV len]) ⟨env, h, sc⟩ κ = κ (.val (.view r base len)) ⟨env, h, sc⟩ := by
  simp only [Builtin.construct]
  rw [run_withBuf, hr, bufK_some]
  unfold newView
  rw [run_ite, if_pos (by omega)]
  rfl

theorem run_newView_none {base len : Int} (hb : ¬(0 ≤ base ∧ 0 ≤ len ∧ base + len ≤ b.length)) :
    run (Builtin.construct .dataView [.buf r, .num base, .num len]) ⟨env, h, sc⟩ κ = κ (.throw .range) ⟨env, h, sc⟩ := by
  simp only [Builtin.construct]
  rw [run_withBuf, hr, bufK_some]
  unfold newView
  rw [run_ite, if_neg hb]
  rfl

theorem run_slice (x y : Nat) : run (Method.run .slice (.buf r) [natV x, natV y]) ⟨env, h, sc⟩ κ =
    κ (.val (.buf h.length)) ⟨env, h ++ [.buf ((b.take y).drop x)], sc⟩ := by
  simp only [Method.run]
  rw [run_withBuf, hr, bufK_some, run_ite, if_pos (by omega)]
  rfl

theorem run_decode {base len : Nat} : run (Method.run .decode (.glob .textDecoder) [.typed r base len]) ⟨env, h, sc⟩ κ =
    κ (.val (.str (Ts.textDecode ((b.drop base).take len)).bytes)) ⟨env, h, sc⟩ := by
  simp only [Method.run]
  rw [run_withBuf, hr, bufK_some]
  rfl
end

theorem run_newArr {z : Nat} (hz : z < 4294967296) (env : Env) (h : List Obj) (sc : Nat → UInt8) (κ : Out → St → Option (Out × St)) :
    run (Builtin.call .array [natV z]) ⟨env, h, sc⟩ κ = κ (.val (.arr h.length)) ⟨env, h ++ [.arr (List.replicate z .undef)], sc⟩ := by
  simp only [Builtin.call]
  rw [run_ite, if_pos (by omega)]
  rfl

theorem run_newArr_throw {z : Nat} (hz : ¬z < 4294967296) (env : Env) (h : List Obj) (sc : Nat → UInt8) (κ : Out → St → Option (Out × St)) :
    run (Builtin.call .array [natV z]) ⟨env, h, sc⟩ κ = κ (.throw .range) ⟨env, h, sc⟩ := by
  simp only [Builtin.call]
  rw [run_ite, if_neg (by omega)]
  rfl

theorem run_fill {h : List Obj} {l : List Val} (x : Val) (env : Env) (sc : Nat → UInt8) (κ : Out → St → Option (Out × St)) :
    run (Method.run .fill (.arr h.length) [x]) ⟨env, h ++ [.arr l], sc⟩ κ = κ (.val (.arr h.length)) ⟨env, h ++ [.arr (List.replicate l.length x)], sc⟩ := by
  simp only [Method.run]
  rw [run_withArr, show (h ++ [Obj.arr l])[h.length]? = some (.arr l) by simp, arrK_some, run_store,
    List.set_append_right _ _ (Nat.le_refl _)]
  simp

section
variable {T : CharTable} {S : Schemas} {P : Prog}

theorem desOk_unit (ns : Namespace) (s : Schema) : DesOk T S P ns s .unit .unit := by
  intro ns' path isField k env h sc r w hc hr hR ho ha hu hk
  refine ⟨.null, h, List.prefix_rfl, rfl, sc, .of fun n => (run_done _ _).symm.trans ?_⟩
  unfold deserialization
  have hs := update_self _ ha ho
  unfold update at hs
  tsrun [hu, hs]

theorem desOk_scalar (ns : Namespace) (s : Schema) (tv : TypeVariant) (c : Scalar) (ht : NamedType T S ns s tv (.scalar c)) :
    DesOk T S P ns s tv (.scalar c) := by
  intro ns' path isField k env h sc r w hc hr hR ho ha hu hk
  have h1 := exec_desScalar hc (sc := sc) (ns' := ns') ht isField hR ho ha hu hk
  show Gets P path (deserialization T s ns' isField tv) env h sc (.scalar c) (Ts.orRange (Ts.readScalar isField k w 0 c))
  cases hd : Ts.readScalar isField k w 0 c with
  | none =>
    rw [hd] at h1
    obtain ⟨d, sc', h1⟩ := h1
    show Ts.Err.range ≠ .fuel → _
    exact fun _ => ⟨_, h, List.prefix_rfl, sc', 17, h1⟩
  | some p =>
    obtain ⟨o, z⟩ := p
    rw [hd] at h1
    obtain ⟨sc', h1⟩ := h1
    exact ⟨_, h, List.prefix_rfl, rfl, sc', 17, h1⟩

theorem desOk_bytes (ns : Namespace) (s : Schema) : DesOk T S P ns s .bytes (.comp .bytes) := by
  intro ns' path isField k env h sc r w hc hr hR ho ha hu hk
  refine ⟨.buf h.length, h ++ [.buf ((w.buf.drop w.base).take w.len)], prefix_append _ _, ⟨_, rfl, ?_⟩, sc, .of fun n => (run_done _ _).symm.trans ?_⟩
  · unfold from_
    rw [if_pos (Nat.le_refl _)]
    simp
  unfold deserialization
  have he : (w.buf.take (w.base + w.len)).drop (w.base + 0) = (w.buf.drop w.base).take w.len := by
    rw [Nat.add_zero, List.take_drop]
  have hsl := fun env κ => run_slice hR.buf env sc κ (w.base + 0) (w.base + w.len)
  rw [he] at hsl
  tsrun [hR.view, ho, Ex.buffer, Ex.byteOffset, Ex.byteLength, hsl, hu, lookup_setCell_ne, assignable_setCell_ne, ne_eq, ha]
  rw [setCell_comm (x := .offset) (y := .payload) nofun]

theorem desOk_string (ns : Namespace) (s : Schema) : DesOk T S P ns s .string (.comp .string) := by
  intro ns' path isField k env h sc r w hc hr hR ho ha hu hk
  refine ⟨_, h, List.prefix_rfl, rfl, sc, .of fun n => (run_done _ _).symm.trans ?_⟩
  unfold deserialization
  have hb : w.base + 0 + w.len ≤ w.buf.length := hR.bound
  have hsub : ((w.len : Nat) : Int) - ((0 : Nat) : Int) = ((w.len : Nat) : Int) := by omega
  tsrun [hR.view, ho, Ex.buffer, Ex.byteOffset, Ex.byteLength, hu, lookup_setCell_ne, assignable_setCell_ne, ne_eq, ha, hc.root, hc.glob, hsub,
    run_newTypedAt hR.buf hb, run_decode hR.buf]
  rw [setCell_comm (x := .offset) (y := .payload) nofun]
  rfl

theorem desOk_units (ns : Namespace) (s : Schema) (r : SourceRange) : DesOk T S P ns s (.array r .unit) (.comp .units) := by
  intro ns' path isField k env h sc r w hc hr hR ho ha hu hk
  show Gets P path _ env h sc (.comp .units) (match Ts.readU64 isField k w 0 with
    | none => .error .range
    | some (o, k) => if k < 4294967296 then .ok (o, UInt64.ofNat k) else .error .range)
  unfold deserialization
  rw [if_neg (by simp [sized]), if_pos rfl]
  cases hd : Ts.readU64 isField k w 0 with
  | none =>
    obtain ⟨c, sc', h1⟩ := exec_viaInteger_none hc (sc := sc) isField hR ho ha hu hk hd
    show Ts.Err.range ≠ .fuel → _
    exact fun _ => ⟨_, h, List.prefix_rfl, sc', 17, h1⟩
  | some p =>
    obtain ⟨o, z⟩ := p
    by_cases hz : z < 4294967296
    · simp only [if_pos hz]
      obtain ⟨sc', h1⟩ := (exec_viaInteger_some hc (sc := sc) isField hR ho ha hu hk hd (out := .val (.arr h.length)) (h' := h ++ [.arr (List.replicate z .null)])
        (e := .as_ (.method false (.builtin .array (args [.builtin .number (args [TsGen.v .payload])])) .fill
        (args [.lit .null])) "null[]".toList) fun n env sc hn => by
          refine (run_done _ _).symm.trans ?_
          tsrun [hc.root, run_newArr hz, run_fill, List.length_replicate]).1 _ rfl
      refine ⟨.arr h.length, h ++ [.arr (List.replicate z .null)], prefix_append _ _, ⟨_, rfl, ?_⟩, sc', 17, h1⟩
      unfold from_
      rw [if_pos (Nat.le_refl _), UInt64.toNat_ofNat_of_lt' (by rw [UInt64.size]; omega)]
      simp
    · simp only [if_neg hz]
      obtain ⟨env', sc', h1⟩ := (exec_viaInteger_some hc (sc := sc) isField hR ho ha hu hk hd (out := .throw .range) (h' := h)
        (e := .as_ (.method false (.builtin .array (args [.builtin .number (args [TsGen.v .payload])])) .fill
        (args [.lit .null])) "null[]".toList) fun n env sc hn => by
          refine (run_done _ _).symm.trans ?_
          tsrun [hc.root, run_newArr_throw hz]).2 _ rfl
      show Ts.Err.range ≠ .fuel → _
      exact fun _ => ⟨env', h, List.prefix_rfl, sc', 17, h1⟩

/-- The loop which reads an array of scalars. -/
theorem scalars_loop {ns ns' : Namespace} {s : Schema} {inner : TypeVariant} {c : Scalar} (ht : NamedType T S ns s inner (.scalar c)) {path : List Str}
    (hc : P.Clear path) {env : Env} {h : List Obj} {r : Nat} {w : Ts.View} (hR : Reader .dataView env h r w) (ha : assignable .offset env = true)
    (hu : uninit .payload env = true) : (fuel off : Nat) → (acc : List Val) → (sc : Nat → UInt8) → (o : Nat) → (as : List c.Val) →
    Ts.scalarLoop (fun o => Ts.readScalar false 0 w o c) fuel off = .ok (o, as) →
    ∃ sc', Loops (fun n => Ex.eval (ctx P path n) (.lit (.bool true)))
      (fun n => .block [] (Stms.exec (ctx P path n) (stms [
            .try_ (deserialization T s ns' false inner ++ stms [.expr (.method false (TsGen.v .payloadAlias) .push (args [TsGen.v .payload]))])
              breakAtEnd])))
      ⟨(.payloadAlias, .const (.arr h.length)) :: setCell .payload (.let_ (.arr h.length)) (setCell .offset (.let_ (natV off)) env), h ++ [.arr acc], sc⟩
      (.val .undef, ⟨(.payloadAlias, .const (.arr h.length)) :: setCell .payload (.let_ (.arr h.length)) (setCell .offset (.let_ (natV o)) env),
        h ++ [.arr (acc ++ as.map (encScalar c))], sc'⟩)
  | 0, _, _, _, _, _, hl => by cases hl
  | fuel + 1, off, acc, sc, o, as, hl => by
    have hcond : ∀ s : St, Ev fun n => Ex.eval (ctx P path n) (.lit (.bool true)) s = some (.val (.bool true), s) :=
      fun s => .of fun n => (run_done _ _).symm.trans (by tsrun)
    have h1 := exec_desScalar hc (sc := sc) (ns' := ns') ht false (k := 0) (off := off)
      (env := (.payload, .uninit) :: (.payloadAlias, .const (.arr h.length)) :: setCell .payload (.let_ (.arr h.length)) (setCell .offset (.let_ (natV off)) env))
      (((((hR.heap (prefix_append h [.arr acc])).set (y := .offset) nofun _).set (y := .payload) nofun _).enter (y := .payloadAlias) nofun _).enter (y := .payload) nofun _)
      (by tsrun [lookup_setCell_ne, ne_eq, lookup_setCell _ (.inr ha)])
      (by tsrun [assignable_setCell_ne, ne_eq, assignable_setCell _ (.inr ha)]) (by tsrun) nofun
    rw [Ts.scalarLoop] at hl
    cases hd : Ts.readScalar false 0 w off c with
    | none =>
      simp only [hd] at hl h1
      cases hl
      obtain ⟨d, sc', h1⟩ := h1
      refine ⟨sc', ?_⟩
      rw [List.map_nil, List.append_nil]
      refine .brk (hcond _) ⟨17, fun n hn => (run_done _ _).symm.trans ?_⟩
      tsrun [deserialization_declared]
      refine (run_eq (h1 n hn) _).trans ?_
      tsrun [breakAtEnd, hc.root, Val.isA]
    | some p =>
      obtain ⟨o1, z⟩ := p
      simp only [hd] at hl h1
      obtain ⟨sc1, h1⟩ := h1
      cases hl2 : Ts.scalarLoop (fun o => Ts.readScalar false 0 w o c) fuel o1 with
      | error e => rw [hl2] at hl; cases hl
      | ok q =>
        obtain ⟨o2, as2⟩ := q
        rw [hl2] at hl
        cases hl
        obtain ⟨sc2, h2⟩ := scalars_loop ht (ns' := ns') hc hR ha hu fuel o1 (acc ++ [encScalar c z]) sc1 _ _ hl2
        refine ⟨sc2, ?_⟩
        rw [List.append_assoc] at h2
        refine .next (v := .undef) (hcond _) ⟨17, fun n hn => (run_done _ _).symm.trans ?_⟩ h2
        tsrun [deserialization_declared]
        refine (run_eq (h1 n hn) _).trans ?_
        tsrun [run_push (show (h ++ [Obj.arr acc])[h.length]? = some (.arr acc) by simp), List.set_append_right _ _ (Nat.le_refl _), Nat.sub_self, List.set_cons_zero,
          setCell_comm (show TVar.offset ≠ .payload from nofun), setCell_setCell]

theorem desOk_scalars (ns : Namespace) (s : Schema) (r : SourceRange) (inner : TypeVariant) (c : Scalar)
    (ht : NamedType T S ns s inner (.scalar c)) : DesOk T S P ns s (.array r inner) (.comp (.scalars c)) := by
  intro ns' path isField k env h sc r w hc hr hR ho ha hu hk
  show Gets P path _ env h sc (.comp (.scalars c)) (Ts.scalarLoop (fun o => Ts.readScalar false 0 w o c) (w.len + 1) 0)
  have hu0 : inner ≠ .unit := fun e => by subst e; cases ht
  cases hd : Ts.scalarLoop (fun o => Ts.readScalar false 0 w o c) (w.len + 1) 0 with
  | error e =>
    intro he
    exfalso
    have : ∀ fuel off, Ts.scalarLoop (fun o => Ts.readScalar false 0 w o c) fuel off = .error e → e = .fuel := by
      intro fuel
      induction fuel with
      | zero => intro off h; cases h; rfl
      | succ fuel ih =>
        intro off h
        rw [Ts.scalarLoop] at h
        split at h
        · cases h
        · split at h
          · next h2 => cases h; exact ih _ h2
          · cases h
    exact he (this _ _ hd)
  | ok p =>
    obtain ⟨o, as⟩ := p
    obtain ⟨sc', hl⟩ := scalars_loop ht (ns' := ns') hc hR ha hu _ _ [] sc _ _ hd
    have hs : setCell .offset (.let_ (natV 0)) env = env := update_self _ ha ho
    rw [hs] at hl
    refine ⟨.arr h.length, h ++ [.arr ([] ++ as.map (encScalar c))], prefix_append _ _, ⟨_, rfl, ?_⟩, sc', hl.ev.mono fun n hn => (run_done _ _).symm.trans ?_⟩
    · unfold from_
      rw [if_pos (Nat.le_refl _)]
      simp
    unfold deserialization
    rw [if_neg (by rw [ht.sized_scalar]; nofun), if_neg hu0]
    tsrun [hu, lookup_setCell _ (.inl hu), run_while]
    refine (run_eq hn _).trans ?_
    tsrun

theorem forall₂_append {α β : Type} {R : α → β → Prop} {l1 l2 : List α} {k1 k2 : List β} (h1 : List.Forall₂ R l1 k1) (h2 : List.Forall₂ R l2 k2) :
    List.Forall₂ R (l1 ++ l2) (k1 ++ k2) := by
  induction h1 with
  | nil => exact h2
  | cons h _ ih => exact .cons h ih

/-- The body of the loop which reads an array of composite elements. -/
abbrev arrayBody (T : CharTable) (s : Schema) (ns' : Namespace) (inner : TypeVariant) : Stms :=
  stms [
    .letVars [.payloadSizeBig],
    .try_ (stms [readVarint .payloadSizeBig .dataViewAlias]) breakAtEnd,
    .const .dataView (subView (.builtin .number (args [TsGen.v .payloadSizeBig]))),
    .const .oldOffset (TsGen.v .offset),
    setOffset (num 0)] ++
  deserialization T s ns' false inner ++
  stms [
    advance (TsGen.v .oldOffset),
    .expr (.method false (TsGen.v .payloadAlias) .push (args [TsGen.v .payload]))]

/-- The variables in that loop. -/
abbrev arrayEnv (env : Env) (p r : Nat) (w : Ts.View) (off : Nat) : Env :=
  (.dataViewAlias, .const (.view r w.base w.len)) :: (.payloadAlias, .const (.arr p)) ::
    setCell .payload (.let_ (.arr p)) (setCell .offset (.let_ (natV off)) env)

/-- The loop which reads an array of composite elements. -/
theorem array_loop {ns ns' : Namespace} {s : Schema} {inner : TypeVariant} {c : NCTy} {path : List Str} (ih : DesOk T S P ns s inner (.comp c))
    (hr : Resolves T S P path s ns ns' inner)
    (hc : P.Clear path) {env : Env} {h : List Obj} {r : Nat} {w : Ts.View} (hR : Reader .dataView env h r w) (ha : assignable .offset env = true)
    : (fuel off : Nat) → (acc : List (c.erase.Msg .inn)) → (l : List Val) → (g : List Obj) → (sc : Nat → UInt8) →
    h <+: g → g[h.length]? = some (.arr l) → List.Forall₂ (cRep .inn (from_ (h.length + 1) g) c) acc l →
    match Ts.arrayLoop (Ts.cDeser false c.erase) w fuel off with
    | .ok p => ∃ g' l' sc', h <+: g' ∧ g'[h.length]? = some (.arr l') ∧ List.Forall₂ (cRep .inn (from_ (h.length + 1) g') c) (acc ++ p.2) l' ∧
        Loops (fun n => Ex.eval (ctx P path n) (.lit (.bool true)))
        (fun n => .block [.payloadSizeBig, .dataView, .oldOffset, .payload] (Stms.exec (ctx P path n) (arrayBody T s ns' inner)))
        ⟨arrayEnv env h.length r w off, g, sc⟩ (.val .undef, ⟨arrayEnv env h.length r w p.1, g', sc'⟩)
    | .error e => e ≠ .fuel → ∃ env' g' sc', h <+: g' ∧
        Loops (fun n => Ex.eval (ctx P path n) (.lit (.bool true)))
        (fun n => .block [.payloadSizeBig, .dataView, .oldOffset, .payload] (Stms.exec (ctx P path n) (arrayBody T s ns' inner)))
        ⟨arrayEnv env h.length r w off, g, sc⟩ (.throw e, ⟨env', g', sc'⟩)
  | 0, _, _, _, _, _, _, _, _ => fun h => absurd rfl h
  | fuel + 1, off, acc, l, g, sc, hg, hgl, hF => by
    have hcond : ∀ s : St, Ev fun n => Ex.eval (ctx P path n) (.lit (.bool true)) s = some (.val (.bool true), s) :=
      fun s => .of fun n => (run_done _ _).symm.trans (by tsrun)
    have hRa : Reader .dataViewAlias (arrayEnv env h.length r w off) g r w := ⟨prefix_get hg hR.buf, hR.bound, rfl⟩
    have h1 := exec_readVarint hc (sc := sc) (x := .payloadSizeBig) (y := .dataViewAlias) nofun (off := off)
      ((((hRa.enter (y := .payload) nofun .uninit).enter (y := .oldOffset) nofun .uninit).enter (y := .dataView) nofun .uninit).enter (y := .payloadSizeBig) nofun (.let_ .undef))
      (by tsrun [lookup_setCell_ne, ne_eq, lookup_setCell _ (.inr ha)])
      (by tsrun [assignable_setCell_ne, ne_eq, assignable_setCell _ (.inr ha)]) (by tsrun)
    rw [Ts.arrayLoop]
    cases hd : Ts.deserializeVarint w off with
    | none =>
      simp only [hd] at h1 ⊢
      obtain ⟨sc', h1⟩ := h1
      refine ⟨g, l, sc', hg, hgl, ?_, ?_⟩
      · rw [List.append_nil]; exact hF
      refine .brk (hcond _) ⟨17, fun n hn => (run_done _ _).symm.trans ?_⟩
      tsrun [deserialization_declared]
      refine (run_eq (h1 n hn) _).trans ?_
      tsrun [breakAtEnd, hc.root, Val.isA]
    | some p =>
      obtain ⟨off1, z⟩ := p
      simp only [hd] at h1 ⊢
      obtain ⟨sc1, h1⟩ := h1
      by_cases hb : w.base + off1 + z ≤ w.buf.length
      · have hn : Ts.View.new w.buf (w.base + off1) z = some ⟨w.buf, w.base + off1, z⟩ := by unfold Ts.View.new; rw [if_pos hb]
        simp only [hn]
        have h2 := ih ns' path false z ((.payloadSizeBig, .let_ (.big z)) :: (.dataView, .const (.view r (w.base + off1) z)) :: (.oldOffset, .const (natV off1)) ::
          (.payload, .uninit) :: arrayEnv env h.length r w 0) g sc1 r ⟨w.buf, w.base + off1, z⟩ hc hr ⟨hRa.buf, hb, rfl⟩
          (by tsrun [lookup_setCell_ne, ne_eq, lookup_setCell _ (.inr ha)])
          (by tsrun [assignable_setCell_ne, ne_eq, assignable_setCell _ (.inr ha)]) rfl nofun
        change Gets P path _ _ g sc1 (.comp c) (Ts.cDeser false c.erase z ⟨w.buf, w.base + off1, z⟩) at h2
        cases hd2 : Ts.cDeser false c.erase z ⟨w.buf, w.base + off1, z⟩ with
        | error e =>
          rw [hd2] at h2
          intro he
          obtain ⟨env', g1, hg1, sc2, N, h2⟩ := h2 he
          refine ⟨env'.drop 4, g1, sc2, hg.trans hg1, .throw (hcond _) ⟨N + 17, fun n hn => (run_done _ _).symm.trans ?_⟩⟩
          tsrun [deserialization_declared]
          refine (run_eq (h1 n (by omega)) _).trans ?_
          tsrun [setCell_comm (show TVar.offset ≠ .payload from nofun), setCell_setCell, subView, hc.root, Ex.buffer, Ex.byteOffset, lookup_setCell_ne, ne_eq, lookup_setCell _ (.inr ha), assignable_setCell_ne, assignable_setCell _ (.inr ha),
            run_newView_some hRa.buf _ _ _ hb]
          refine (run_eq (h2 n (by omega)) _).trans ?_
          tsrun
        | ok q =>
          obtain ⟨o2, a⟩ := q
          rw [hd2] at h2
          obtain ⟨x, g1, hg1, hx, sc2, N, h2⟩ := h2
          have hlt : h.length < g.length := (List.getElem?_eq_some_iff.1 hgl).1
          have hbody : Ev fun n => M.block [.payloadSizeBig, .dataView, .oldOffset, .payload] (Stms.exec (ctx P path n) (arrayBody T s ns' inner))
              ⟨arrayEnv env h.length r w off, g, sc⟩ =
              some (.val .undef, ⟨arrayEnv env h.length r w (o2 + off1), g1.set h.length (.arr (l ++ [x])), sc2⟩) := by
            refine ⟨N + 17, fun n hn => (run_done _ _).symm.trans ?_⟩
            tsrun [deserialization_declared]
            refine (run_eq (h1 n (by omega)) _).trans ?_
            tsrun [setCell_comm (show TVar.offset ≠ .payload from nofun), setCell_setCell, subView, hc.root, Ex.buffer, Ex.byteOffset, lookup_setCell_ne, ne_eq, lookup_setCell _ (.inr ha), assignable_setCell_ne, assignable_setCell _ (.inr ha),
              run_newView_some hRa.buf _ _ _ hb]
            refine (run_eq (h2 n (by omega)) _).trans ?_
            tsrun [setCell_comm (show TVar.offset ≠ .payload from nofun), setCell_setCell, lookup_setCell_ne, ne_eq, lookup_setCell _ (.inr ha), assignable_setCell_ne, assignable_setCell _ (.inr ha),
              run_push (prefix_get hg1 hgl)]
          have hg' : h <+: g1.set h.length (.arr (l ++ [x])) := prefix_set (hg.trans hg1) (Nat.le_refl _) _
          have hle : (from_ (h.length + 1) g).Le (from_ (h.length + 1) (g1.set h.length (.arr (l ++ [x])))) :=
            fun k o hk => from_set_le (Nat.lt_succ_self _) _ k o (from_le (Nat.le_refl _) hg1 k o hk)
          have hle' : (from_ g.length g1).Le (from_ (h.length + 1) (g1.set h.length (.arr (l ++ [x])))) :=
            fun k o hk => from_set_le (Nat.lt_succ_self _) _ k o (from_le (by omega) List.prefix_rfl k o hk)
          have h3 := array_loop ih hr hc hR ha fuel (o2 + off1) (acc ++ [a]) (l ++ [x]) (g1.set h.length (.arr (l ++ [x]))) sc2 hg'
            (by rw [List.getElem?_set_self (by have := hg1.length_le; omega)])
            (forall₂_append (forall₂_imp (fun a v h => cRep_mono hle c a v h) hF) (.cons (cRep_mono hle' c a x hx) .nil))
          simp only
          cases hl : Ts.arrayLoop (Ts.cDeser false c.erase) w fuel (o2 + off1) with
          | error e =>
            rw [hl] at h3
            intro he
            obtain ⟨env', g', sc', hg'', h3⟩ := h3 he
            exact ⟨env', g', sc', hg'', .next (hcond _) hbody h3⟩
          | ok q =>
            rw [hl] at h3
            obtain ⟨g', l', sc', hg'', hl', hF', h3⟩ := h3
            refine ⟨g', l', sc', hg'', hl', ?_, .next (hcond _) hbody h3⟩
            rw [List.append_assoc] at hF'
            exact hF'
      · have hn : Ts.View.new w.buf (w.base + off1) z = none := by unfold Ts.View.new; rw [if_neg hb]
        simp only [hn]
        have hnv := fun env κ => run_newView_none hRa.buf env sc1 κ (base := (w.base + off1 : Nat)) (len := z) (by omega)
        refine fun _ => ⟨arrayEnv env h.length r w off1, g, sc1, hg, .throw (hcond _) ⟨17, fun n hn => (run_done _ _).symm.trans ?_⟩⟩
        tsrun [deserialization_declared]
        refine (run_eq (h1 n hn) _).trans ?_
        tsrun [setCell_comm (show TVar.offset ≠ .payload from nofun), setCell_setCell, subView, hc.root, Ex.buffer, Ex.byteOffset, lookup_setCell_ne, ne_eq, lookup_setCell _ (.inr ha), hnv]

theorem desOk_array (ns : Namespace) (s : Schema) (r : SourceRange) (inner : TypeVariant) (c : NCTy)
    (ht : NamedType T S ns s inner (.comp c)) (ih : DesOk T S P ns s inner (.comp c)) :
    DesOk T S P ns s (.array r inner) (.comp (.array c)) := by
  intro ns' path isField k env h sc r w hc hr hR ho ha hu hk
  have hr' : Resolves T S P path s ns ns' inner := fun i n k hm => hr i n k (.array hm)
  have hl := array_loop ih hr' hc hR ha (w.len + 1) 0 [] [] (h ++ [.arr []]) sc (prefix_append _ _) (by simp) .nil
  have hs : setCell .offset (.let_ (natV 0)) env = env := update_self _ ha ho
  show Gets P path _ env h sc (.comp (.array c)) (Ts.arrayLoop (Ts.cDeser false c.erase) w (w.len + 1) 0)
  cases hd : Ts.arrayLoop (Ts.cDeser false c.erase) w (w.len + 1) 0 with
  | error e =>
    intro he
    rw [hd] at hl
    obtain ⟨env', g', sc', hg, hl⟩ := hl he
    unfold arrayEnv at hl
    rw [hs] at hl
    refine ⟨env'.drop 2, g', hg, sc', hl.ev.mono fun n hn => (run_done _ _).symm.trans ?_⟩
    unfold deserialization
    rw [if_pos ht.sized_comp]
    tsrun [hu, lookup_setCell _ (.inl hu), lookup_setCell_ne, ne_eq, hR.view, run_while, deserialization_declared]
    refine (run_eq hn _).trans ?_
    tsrun
  | ok p =>
    obtain ⟨o, as⟩ := p
    rw [hd] at hl
    obtain ⟨g', l', sc', hg, hg2, hF, hl⟩ := hl
    unfold arrayEnv at hl
    rw [hs] at hl
    refine ⟨.arr h.length, g', hg, ⟨h.length, l', rfl, ?_, forall₂_imp (fun a v h' => cRep_mono (from_le (Nat.le_succ _) List.prefix_rfl) c a v h') hF⟩, sc', hl.ev.mono fun n hn => (run_done _ _).symm.trans ?_⟩
    · unfold from_
      rw [if_pos (Nat.le_refl _)]
      exact hg2
    unfold deserialization
    rw [if_pos ht.sized_comp]
    tsrun [hu, lookup_setCell _ (.inl hu), lookup_setCell_ne, ne_eq, hR.view, run_while, deserialization_declared]
    refine (run_eq hn _).trans ?_
    tsrun

theorem desOk_custom (ns : Namespace) (s : Schema) (i : Option Identifier) (n : Identifier) (k : List Str × Str) (c : NCTy)
    (hk : s.RefersTo ns i n k) (hN : Named T S k c) (ih : DesFnOk P c) : DesOk T S P ns s (.custom i n) (.comp c) := by
  intro ns' path isField kk env h sc r w hc hr hR ho ha hu hk'
  have ih := ih isField kk env h sc r w hR.buf hR.bound
  obtain ⟨ns₂, s₂, d₂, hd, hp⟩ := named_path hN
  have hres := hr i n k (.custom _ _) hk ns₂ s₂ d₂ hd
  rw [← hp] at hres
  show Gets P path _ env h sc (.comp c) (Ts.cDeser isField c.erase kk w)
  cases hd : Ts.cDeser isField c.erase kk w with
  | error e =>
    intro he
    rw [hd] at ih
    obtain ⟨h', sc', hg, N, h3⟩ := ih he
    refine ⟨env, h', hg, sc', N, fun q hq => (run_done _ _).symm.trans ?_⟩
    unfold deserialization
    simp only [stms, Stms.ofList]
    rw [run_stms_cons, run_let, run_path (ctx P path q) _ _ (by exact hres)]
    tsrun [hR.view, run_eq (h3 q hq)]
  | ok p =>
    rw [hd] at ih
    obtain ⟨e1, x, h', sc', hg, hx, N, h3⟩ := ih
    refine ⟨x, h', hg, hx, sc', N, fun q hq => (run_done _ _).symm.trans ?_⟩
    unfold deserialization
    simp only [stms, Stms.ofList, setOffset]
    rw [run_stms_cons, run_let, run_path (ctx P path q) _ _ (by exact hres)]
    tsrun [hR.view, run_eq (h3 q hq), Ex.byteLength, hu, lookup_setCell_ne, ne_eq, assignable_setCell_ne, ha, e1,
      setCell_comm (show TVar.offset ≠ .payload from nofun)]

end

end Typical.TsGen

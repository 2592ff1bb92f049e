import Verif.TsGen.SerType

/-!
# Helper: the generated `serializeWithAtlasUnsafe` functions
-/

namespace Typical.TsGen

open Gen (NCTy NTy NFields DeclName FieldName Ev)

theorem structFieldSerialize_declared (T : CharTable) (s : Schema) (ns : Namespace) (f : Field) : (structFieldSerialize T s ns f).declared = [] := rfl

/-- What is written for a field of a struct. -/
def slotSer (i : Nat) (t : Ty) : Option (t.Msg .out) → Option (Ts.TAtlas t) → Ts.W → Option Ts.W
  | some p, some pa, w => (Ts.put (Ts.serializeFieldHeader i (Ts.tSize t pa) t.integerEncoded) w).bind (Ts.tSer t p pa)
  | _, _, w => some w

theorem structSer_cons (i : Nat) (r : Rule) (t : Ty) (rest : Fields) (slot : Slot (r.mayOmit .out) (t.Msg .out)) (m : rest.Struct .out)
    (aslot : Slot (r.mayOmit .out) (Ts.TAtlas t)) (a : Ts.AtlasStruct rest) (w : Ts.W) :
    Ts.structSer (.cons i r t rest) (slot, m) (aslot, a) w = (slotSer i t (Slot.get? slot) (Slot.get? aslot) w).bind (Ts.structSer rest m a) := by
  rw [Ts.structSer]
  cases Slot.get? slot <;> cases Slot.get? aslot <;> rfl

section
variable {T : CharTable} {S : Schemas} {P : Prog}

/-- The statement for a field of a struct. -/
theorem exec_structFieldSerialize {ns ns' : Namespace} {s : Schema} {path : List Str} (hc : P.Clear path) (f : Field) (t : NTy)
    (ht : NamedType T S ns s f.type.variant t) (ih : SerOk T S P ns s f.type.variant t)
    (hr : Resolves T S P path s ns ns' f.type.variant) (slot : Slot (f.rule.mayOmit .out) (t.erase.Msg .out))
    (o la : List (Str × Val)) (H : Part) (x xa : Val) (hx : member (tsCamel T f.name) o = some x) (hxa : member (tsCamel T f.name) la = some xa)
    (hm : slotRep (tRep .out H t) (f.rule.mayOmit .out) slot x)
    (ha : slotRep (tAtl H t) (f.rule.mayOmit .out) (Slot.map (Ts.tAtlas t.erase) slot) xa)
    (env : Env) (h : List Obj) (sc : Nat → UInt8) (hH : H.In h) (b len : Nat) (hb : H b = none) (w w' : Ts.W)
    (e1 : lookup .message env = some (.obj o)) (e2 : lookup .atlas env = some (.obj la)) (hW : Writer env h b len w)
    (hs : slotSer f.index t.erase (Slot.get? slot) (Slot.get? (Slot.map (Ts.tAtlas t.erase) slot)) w = some w') :
    w'.buf.length = w.buf.length ∧
      Ev fun n => (structFieldSerialize T s ns' f).exec (ctx P path n) ⟨env, h, sc⟩ =
        some (.val .undef, ⟨update .offset (natV w'.off) env, h.set b (.buf w'.buf), sc⟩) := by
  obtain ⟨fr, fc, rule, name, ft, index⟩ := f
  have hie := ht.integerEncoded
  simp only at hx hxa hie hr ht
  have here : ∀ (m : t.erase.Msg .out) (pre : Env), lookup .payload (pre ++ []) = some x → lookup .payloadAtlas (pre ++ []) = some xa →
      (∀ h w env, Writer env h b len w → Writer (pre ++ env) h b len w) →
      tRep .out H t m x → tAtl H t (Ts.tAtlas t.erase m) xa →
      slotSer index t.erase (some m) (some (Ts.tAtlas t.erase m)) w = some w' → w'.buf.length = w.buf.length ∧
      ∃ z, Ts.put (Ts.serializeFieldHeader index (Ts.tSize t.erase (Ts.tAtlas t.erase m)) t.erase.integerEncoded) w = some z ∧
      ∃ N, ∀ n, N ≤ n → 17 ≤ n ∧ (serialization T s ns' true ft.variant).exec (ctx P path n) ⟨pre ++ update .offset (natV z.off) env, h.set b (.buf z.buf), sc⟩ =
        some (.val .undef, ⟨update .offset (natV w'.off) (pre ++ update .offset (natV z.off) env), (h.set b (.buf z.buf)).set b (.buf w'.buf), sc⟩) := by
    intro m pre hp1 hp2 hp3 hm ha hs
    rw [slotSer, Option.bind_eq_some_iff] at hs
    obtain ⟨z, hz, hs⟩ := hs
    have hzl := (Ts.put_inv hz).2
    have hn := hW.next hzl
    rw [← serOf_true] at hs
    rw [← atlasOf_true] at ha
    have hpre : ∀ (y : TVar) (u : Val) (env : Env), lookup y (pre ++ []) = some u → lookup y (pre ++ env) = some u := by
      intro y u env
      clear hp1 hp2 hp3
      induction pre with
      | nil => nofun
      | cons q pre ih =>
        obtain ⟨q, c⟩ := q
        simp only [List.cons_append, lookup]
        split
        · exact id
        · exact ih
    obtain ⟨q1, N, q2⟩ := ih ns' path true m x xa (pre ++ update .offset (natV z.off) env) (h.set b (.buf z.buf)) sc H b len z w' hc hr hm ha
      (hH.set hb _) hb (hpre _ _ _ hp1) (hpre _ _ _ hp2) (hp3 _ _ _ hn) hs
    exact ⟨q1.trans hzl, z, hz, N + 17, fun n hn' => ⟨by omega, q2 n (by omega)⟩⟩
  have hreq : ∀ (m : t.erase.Msg .out), tRep .out H t m x → tAtl H t (Ts.tAtlas t.erase m) xa → rule ≠ .optional →
      slotSer index t.erase (some m) (some (Ts.tAtlas t.erase m)) w = some w' → w'.buf.length = w.buf.length ∧
      Ev fun n => (structFieldSerialize T s ns' ⟨fr, fc, rule, name, ft, index⟩).exec (ctx P path n) ⟨env, h, sc⟩ =
        some (.val .undef, ⟨update .offset (natV w'.off) env, h.set b (.buf w'.buf), sc⟩) := by
    intro m hm' ha' hrule hs'
    obtain ⟨q1, z, hz, N, q2⟩ := here m [(.payload, .const x), (.payloadAtlas, .const xa), (.payloadSize, .const (natV (Ts.tSize t.erase (Ts.tAtlas t.erase m))))]
      rfl rfl (fun _ _ _ hw => ((hw.enter (x := .payloadSize) nofun nofun _).enter (x := .payloadAtlas) nofun nofun _).enter (x := .payload) nofun nofun _) hm' ha' hs'
    refine ⟨q1, N, fun n hn => ?_⟩
    refine (run_done _ _).symm.trans ?_
    cases rule with
    | optional => exact absurd rfl hrule
    | _ =>
      unfold structFieldSerialize
      tsrun [serialization_declared, messageField, e1, e2, run_member hx, run_member hxa, writeHeader]
      rw [run_atlasLookup ht ha' (by tsrun)]
      tsrun [hie, hW.view, hW.off, hW.assign, hc.runtime, run_callHeader hc (q2 n hn).1 hW.buf hW.length hz]
      refine (run_eq (q2 n hn).2 _).trans ?_
      tsrun [setCell_setCell, List.set_set]
  cases rule with
  | optional =>
    change Option _ at slot
    cases slot with
    | none =>
      cases hs
      cases (show x = .undef from hm)
      refine ⟨rfl, .of fun n => ?_⟩
      rw [update_self env hW.assign hW.off, set_same hW.buf]
      refine (run_done _ _).symm.trans ?_
      unfold structFieldSerialize
      tsrun [serialization_declared, messageField, e1, e2, run_member hx, run_member hxa, strictEq]
    | some m =>
      change tRep .out H t m x at hm
      change tAtl H t (Ts.tAtlas t.erase m) xa at ha
      obtain ⟨q1, z, hz, N, q2⟩ := here m [(.payloadSize, .const (natV (Ts.tSize t.erase (Ts.tAtlas t.erase m)))), (.payload, .const x), (.payloadAtlas, .const xa)]
        rfl rfl (fun _ _ _ hw => ((hw.enter (x := .payloadAtlas) nofun nofun _).enter (x := .payload) nofun nofun _).enter (x := .payloadSize) nofun nofun _) hm ha hs
      have hu : x ≠ .undef := fun e => tRep_undef t m (e ▸ hm)
      have hu' : xa ≠ .undef := fun e => tAtl_undef t _ (e ▸ ha)
      refine ⟨q1, N, fun n hn => ?_⟩
      refine (run_done _ _).symm.trans ?_
      unfold structFieldSerialize
      tsrun [serialization_declared, messageField, e1, e2, run_member hx, run_member hxa, strictEq_undef hu, strictEq_undef hu', writeHeader]
      rw [run_atlasLookup ht ha (by tsrun)]
      tsrun [hie, hW.view, hW.off, hW.assign, hc.runtime, run_callHeader hc (q2 n hn).1 hW.buf hW.length hz]
      refine (run_eq (q2 n hn).2 _).trans ?_
      tsrun [setCell_setCell, List.set_set]
  | _ => exact hreq slot hm ha nofun hs

/-- The statements for the fields of a struct. -/
theorem exec_structFieldsSerialize {ns ns' : Namespace} {s : Schema} {path : List Str} (hc : P.Clear path) (o la : List (Str × Val)) (H : Part)
    (sc : Nat → UInt8) (b len : Nat) (hb : H b = none) : (l : List Field) → (fs : NFields) →
    FieldsHave T (fun tv t => NamedType T S ns s tv t ∧ SerOk T S P ns s tv t) l fs →
    (∀ f ∈ l, Resolves T S P path s ns ns' f.type.variant) → (m : fs.erase.Struct .out) → sRep .out H fs m o → sAtl H fs (Ts.structAtlas fs.erase m).2 la →
    ∀ (env : Env) (h : List Obj) (w w' : Ts.W), H.In h → lookup .message env = some (.obj o) → lookup .atlas env = some (.obj la) →
    Writer env h b len w → Ts.structSer fs.erase m (Ts.structAtlas fs.erase m).2 w = some w' →
    Emits P path (Stms.ofList (l.flatMap (fun f => [structFieldSerialize T s ns' f, .blank]))) env h sc b w w'
  | [], _, .nil, _, _, _, _, env, h, w, w', _, _, _, hW, hs => by
    cases hs
    refine ⟨rfl, .of fun n => ?_⟩
    rw [update_self env hW.assign hW.off, set_same hW.buf]
    rfl
  | f :: l, _, .cons (t := t) (fs := fs) ⟨ht, ih⟩ hF, hr, m, hm, ha, env, h, w, w', hH, e1, e2, hW, hs => by
    obtain ⟨slot, m⟩ := m
    obtain ⟨⟨x, hx, hm1⟩, hm2⟩ := hm
    obtain ⟨⟨xa, hxa, ha1⟩, ha2⟩ := ha
    have hs : Ts.structSer (.cons f.index f.rule t.erase fs.erase) (slot, m) (Slot.map (Ts.tAtlas t.erase) slot, (Ts.structAtlas fs.erase m).2) w = some w' := hs
    rw [structSer_cons, Option.bind_eq_some_iff] at hs
    obtain ⟨z, hz, hs⟩ := hs
    obtain ⟨q1, hev1⟩ := exec_structFieldSerialize hc f t ht ih (hr f (List.mem_cons_self ..)) slot o la H x xa hx hxa hm1 ha1 env h sc hH b len hb w z e1 e2 hW hz
    obtain ⟨q2, hev2⟩ := exec_structFieldsSerialize hc o la H sc b len hb l fs hF (fun g hg => hr g (List.mem_cons_of_mem _ hg)) m hm2 ha2
      (update .offset (natV z.off) env) (h.set b (.buf z.buf)) z w' (hH.set hb _)
      ((lookup_setCell_ne (show TVar.message ≠ .offset from nofun) _ _).trans e1) ((lookup_setCell_ne (show TVar.atlas ≠ .offset from nofun) _ _).trans e2)
      (hW.next q1) hs
    refine ⟨q2.trans q1, (hev1.and hev2).mono fun n ⟨k1, k2⟩ => ?_⟩
    refine (run_done _ _).symm.trans ?_
    tsrun [List.flatMap_cons]
    refine (run_eq k1 _).trans ?_
    tsrun
    refine (run_done _ _).trans (k2.trans ?_)
    tsrun [setCell_setCell, List.set_set]

theorem structSerialize_declared (s : Schema) (ns : Namespace) (l : List Field) : (structSerialize T s ns l).declared = [] := by
  unfold structSerialize
  rw [Stms.declared_append, declared_ofList_nil]
  · rfl
  · intro x hx
    rw [List.mem_flatMap] at hx
    obtain ⟨f, _, hx⟩ := hx
    simp only [List.mem_cons, List.not_mem_nil, or_false] at hx
    rcases hx with rfl | rfl <;> rfl

theorem serFn_struct (ns : Namespace) (s : Schema) (d : Declaration) (fs : NFields) {ns' : Namespace}
    (hR : Ready T S P ns s d ns') (hd : d.variant = .struct)
    (hF : FieldsHave T (fun tv t => NamedType T S ns s tv t ∧ SerOk T S P ns s tv t) d.fields fs) :
    SerFnOk P (.struct (declName T ns d) fs) := by
  intro isField m v va env h sc H b len w w' hm ha hH hb hbuf hlen hs
  obtain ⟨o, rfl, -, hm⟩ := hm
  obtain ⟨la, rfl, -, ha⟩ := ha
  obtain ⟨q1, N, hev⟩ := exec_structFieldsSerialize hR.clear o la H sc b len hb d.fields fs hF hR.resolves m hm ha
    [(.dataView, .let_ (.view b 0 len)), (.offset, .let_ (natV w.off)), (.message, .let_ (.obj o)), (.atlas, .let_ (.obj la))] h w w' hH
    rfl rfl ⟨hbuf, hlen, rfl, rfl, rfl⟩ hs
  refine ⟨q1, N + 1, fun n hn => ?_⟩
  obtain ⟨n, rfl⟩ : ∃ q, n = q + 1 := ⟨n - 1, by omega⟩
  refine (run_done _ _).symm.trans ?_
  rw [show (NCTy.struct (declName T ns d) fs).path = declPath T ns.components d from rfl, callFn_decl hR.code]
  have hb : (declCode T s ns' d).body .serializeWithAtlasUnsafe = structSerialize T s ns' d.fields := by simp only [declCode, hd]
  rw [hb, structSerialize_declared, run_frame, if_pos ⟨rfl, by decide⟩]
  unfold structSerialize
  tsrun [Fn.params]
  refine (run_eq (hev n (by omega)) _).trans ?_
  tsrun

theorem choiceSerialize_declared (s : Schema) (ns : Namespace) (name : Identifier) (l : List Field) : (choiceSerialize T s ns name l).declared = [] := by
  unfold choiceSerialize
  rw [Stms.declared_append, declared_ofList_nil]
  · rfl
  · intro x hx
    rw [List.mem_map] at hx
    obtain ⟨f, _, rfl⟩ := hx
    rfl

theorem callFn_choiceSerialize {ns : Namespace} {s : Schema} {d : Declaration} {ns' : Namespace} (hR : Ready T S P ns s d ns') (hd : d.variant = .choice)
    {pre : List Field} {f : Field} {post : List Field} (hsplit : d.fields = pre ++ f :: post) {o : List (Str × Val)}
    (ho : ∀ g ∈ pre, hasProperty (o.map (·.1)) (tsCamel T g.name) = false) (x y va : Val) (n : Nat) (env : Env) (h : List Obj) (sc : Nat → UInt8) :
    callFn P (n + 1) (.decl (declPath T ns.components d) .serializeWithAtlasUnsafe) [x, y, .obj o, va] ⟨env, h, sc⟩ =
      run ((choiceFieldSerialize T s ns' d.name f).exec (ctx P (declPath T ns.components d) n))
        ⟨[(.dataView, .let_ x), (.offset, .let_ y), (.message, .let_ (.obj o)), (.atlas, .let_ va)], h, sc⟩
        (thenK (fun _ => (Stms.ofList (post.map (choiceFieldSerialize T s ns' d.name) ++ [returnUnreachable])).exec (ctx P (declPath T ns.components d) n))
          (returnK env doneK)) := by
  refine (run_done _ _).symm.trans ?_
  rw [callFn_decl hR.code]
  have hb : (declCode T s ns' d).body .serializeWithAtlasUnsafe = choiceSerialize T s ns' d.name d.fields := by simp only [declCode, hd]
  rw [hb, choiceSerialize_declared, run_frame, if_pos ⟨rfl, by decide⟩]
  unfold choiceSerialize
  simp only [stms, ofList_append]
  rw [hsplit, List.map_append, List.append_assoc]
  refine (run_skipFields (T := T) _ (fun f => rfl) _ _ _ _ _ rfl pre ho).trans ?_
  rw [List.map_cons, List.cons_append, Stms.ofList, run_stms_cons]
  rfl

theorem serFn_choice (ns : Namespace) (s : Schema) (d : Declaration) (fs : NFields) {ns' : Namespace}
    (hR : Ready T S P ns s d ns') (hd : d.variant = .choice)
    (hF : FieldsHave T (fun tv t => NamedType T S ns s tv t ∧ SerOk T S P ns s tv t) d.fields fs) (H : Part) :
    (m : Chain (fs.erase.Sel .out true) (fs.erase.Sel .out false)) → ∀ (v va : Val) (env : Env) (h : List Obj) (sc : Nat → UInt8) (b len : Nat) (w w' : Ts.W),
    chainRep (selRep .out H fs) (selRep .out H fs) m v →
    atlChain (selAtl H fs) (selAtl H fs) (Ts.chainAtlas (Ts.selAtlas fs.erase) (Ts.selAtlas fs.erase) m) va → H.In h → H b = none →
    h[b]? = some (.buf w.buf) → len = w.buf.length →
    Ts.chainSer (Ts.selSer fs.erase) (Ts.selSer fs.erase) m (Ts.chainAtlas (Ts.selAtlas fs.erase) (Ts.selAtlas fs.erase) m) w = some w' →
    w'.buf.length = w.buf.length ∧
    Ev fun n => callFn P n (.decl (declPath T ns.components d) .serializeWithAtlasUnsafe) [.view b 0 len, natV w.off, v, va] ⟨env, h, sc⟩ =
      some (.val (natV w'.off), ⟨env, h.set b (.buf w'.buf), sc⟩)
  | .last p, v, va, env, h, sc, b, len, w, w', ⟨o, hv, hm⟩, ⟨la, hva, hsz, ha⟩, hH, hb, hbuf, hlen, hs => by
    subst hv hva
    obtain ⟨pre, f, post, t, x, y, hsel⟩ := selected hF p hm
    have hf : f ∈ d.fields := by rw [hsel.split]; simp
    obtain ⟨xa, hxa, hta⟩ := hsel.field _ _ ha
    have hs : Ts.selSer fs.erase p (Ts.selAtlas fs.erase p).2 w = some w' := hs
    rw [hsel.ser, Option.bind_eq_some_iff] at hs
    obtain ⟨z, hz, hs⟩ := hs
    have hzl := (Ts.put_inv hz).2
    rw [← serOf_true] at hs
    have hta' := hta
    rw [← atlasOf_true] at hta'
    have hfb : outFallback f.rule = false := (outFallback_eq _).trans hsel.fallback
    obtain ⟨q1, N, q2⟩ := hsel.type.2 ns' _ true x y xa
      ((.payload, .const y) :: (.payloadAtlas, .const xa) :: (.payloadSize, .const (natV (Ts.tSize t.erase (Ts.tAtlas t.erase x)))) ::
        [(.dataView, .let_ (.view b 0 len)), (.offset, .let_ (natV z.off)), (.message, .let_ (.obj o)), (.atlas, .let_ (.obj la))])
      (h.set b (.buf z.buf)) sc H b len z w' hR.clear (hR.resolves f hf) hsel.rep hta' (hH.set hb _) hb (by tsrun) (by tsrun)
      ⟨get_set (List.getElem?_eq_some_iff.mp hbuf).1 _, by rw [hzl]; exact hlen, by tsrun, by tsrun, by tsrun⟩ hs
    refine ⟨q1.trans hzl, N + 18, fun n hn => ?_⟩
    obtain ⟨n, rfl⟩ : ∃ q, n = q + 1 := ⟨n - 1, by omega⟩
    rw [callFn_choiceSerialize hR hd hsel.split hsel.others]
    unfold choiceFieldSerialize
    rw [hfb]
    tsrun [serialization_declared, messageField, Val.has, hasProperty_member hsel.value, run_member hsel.value, atlasField, run_member hxa, writeHeader]
    rw [run_atlasLookup hsel.type.1 hta (by tsrun)]
    tsrun [hsel.type.1.integerEncoded, hR.clear.runtime, run_callHeader hR.clear (show 17 ≤ n by omega) hbuf hlen hz]
    refine (run_eq (q2 n (by omega)) _).trans ?_
    tsrun [List.set_set]
  | .more p rest, v, va, env, h, sc, b, len, w, w', ⟨o, fw, hv, hm, hfw, hrest⟩, ha, hH, hb, hbuf, hlen, hs => by
    rw [chainAtlas_more] at ha hs
    obtain ⟨la, vf, hva, hsz, ha, hfa, harest⟩ := ha
    subst hv hva
    obtain ⟨pre, f, post, t, x, y, hsel⟩ := selected hF p hm
    have hf : f ∈ d.fields := by rw [hsel.split]; simp
    obtain ⟨xa, hxa, hta⟩ := hsel.field _ _ ha
    have hs : (Ts.selSer fs.erase p (Ts.selAtlas fs.erase p).2 w).bind (Ts.chainSer (Ts.selSer fs.erase) (Ts.selSer fs.erase) rest
      (Ts.chainAtlas (Ts.selAtlas fs.erase) (Ts.selAtlas fs.erase) rest)) = some w' := hs
    rw [Option.bind_eq_some_iff] at hs
    obtain ⟨u, hs, hs2⟩ := hs
    rw [hsel.ser, Option.bind_eq_some_iff] at hs
    obtain ⟨z, hz, hs⟩ := hs
    have hzl := (Ts.put_inv hz).2
    rw [← serOf_true] at hs
    have hta' := hta
    rw [← atlasOf_true] at hta'
    have hfb : outFallback f.rule = true := (outFallback_eq _).trans hsel.fallback
    obtain ⟨q1, N, q2⟩ := hsel.type.2 ns' _ true x y xa
      ((.payload, .const y) :: (.payloadAtlas, .const xa) :: (.payloadSize, .const (natV (Ts.tSize t.erase (Ts.tAtlas t.erase x)))) ::
        [(.dataView, .let_ (.view b 0 len)), (.offset, .let_ (natV z.off)), (.message, .let_ (.obj o)), (.atlas, .let_ (.obj la))])
      (h.set b (.buf z.buf)) sc H b len z u hR.clear (hR.resolves f hf) hsel.rep hta' (hH.set hb _) hb (by tsrun) (by tsrun)
      ⟨get_set (List.getElem?_eq_some_iff.mp hbuf).1 _, by rw [hzl]; exact hlen, by tsrun, by tsrun, by tsrun⟩ hs
    obtain ⟨k1, N2, k2⟩ := serFn_choice ns s d fs hR hd hF H rest fw vf ((.payload, .const y) :: (.payloadAtlas, .const xa) :: (.payloadSize, .const (natV (Ts.tSize t.erase (Ts.tAtlas t.erase x)))) ::
        [(.dataView, .let_ (.view b 0 len)), (.offset, .let_ (natV u.off)), (.message, .let_ (.obj o)), (.atlas, .let_ (.obj la))])
      (h.set b (.buf u.buf)) sc b len u w' hrest harest (hH.set hb _) hb (get_set (List.getElem?_eq_some_iff.mp hbuf).1 _) (by rw [q1, hzl]; exact hlen) hs2
    refine ⟨k1.trans (q1.trans hzl), N + N2 + 18, fun n hn => ?_⟩
    obtain ⟨n, rfl⟩ : ∃ q, n = q + 1 := ⟨n - 1, by omega⟩
    rw [callFn_choiceSerialize hR hd hsel.split hsel.others]
    unfold choiceFieldSerialize
    rw [hfb]
    tsrun [serialization_declared, messageField, Val.has, hasProperty_member hsel.value, run_member hsel.value, atlasField, run_member hxa, writeHeader]
    rw [run_atlasLookup hsel.type.1 hta (by tsrun)]
    tsrun [hsel.type.1.integerEncoded, hR.clear.runtime, run_callHeader hR.clear (show 17 ≤ n by omega) hbuf hlen hz]
    refine (run_eq (q2 n (by omega)) _).trans ?_
    tsrun [List.set_set, Ex.fallback]
    rw [if_neg (by simp [hides_eq])]
    tsrun [run_member hfw, run_member hfa, run_eq (k2 n (by omega)), List.set_set]

/-- The generated `serializeWithAtlasUnsafe` functions. -/
theorem ser_ok (hP : Implements T S P) {k : List Str × Str} {c : NCTy} (h : Named T S k c) : SerFnOk P c := by
  refine Named.induct (QC := SerFnOk P) (QT := SerOk T S P) ?_ ?_ serOk_unit serOk_scalar serOk_bytes serOk_string serOk_units
    ?_ serOk_array serOk_custom h
  · intro k ns s d fs h1 h2 _ h4
    obtain ⟨ns', hR⟩ := hP k ns s d h1
    exact serFn_struct ns s d fs hR h2 h4
  · intro k ns s d fs h1 h2 _ h4
    obtain ⟨ns', hR⟩ := hP k ns s d h1
    intro isField m v va env h sc H b len w w' hm ha hH hb hbuf hlen hs
    exact serFn_choice ns s d fs hR h2 h4 H m v va env h sc b len w w' hm ha hH hb hbuf hlen hs
  · intro ns s r inner sc h1 _
    exact serOk_scalars ns s r inner sc h1
end

end Typical.TsGen

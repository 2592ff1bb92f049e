import Verif.TsGen.AtlasDecl

/-!
# Helper: the generated `atlas` functions of choices
-/

namespace Typical.TsGen

open Gen (NCTy NTy NFields DeclName FieldName Ev)

theorem hasProperty_member {name : Str} : {l : List (Str × Val)} → {w : Val} → member name l = some w → hasProperty (l.map (·.1)) name = true
  | (n, v) :: l, w, h => by
    rw [member] at h
    unfold hasProperty
    rw [List.map_cons, List.contains_cons]
    split at h
    · next e => subst e; simp
    · have := hasProperty_member h
      unfold hasProperty at this
      rw [Bool.or_assoc, this, Bool.or_true]

/-- The field of a choice which an object has. -/
structure Selected (T : CharTable) (Q : TypeVariant → NTy → Prop) (H : Part) (o : List (Str × Val)) (l : List Field) {fb : Bool} (fs : NFields)
    (p : fs.erase.Sel .out fb) (pre : List Field) (f : Field) (post : List Field) (t : NTy) (x : t.erase.Msg .out) (w : Val) : Prop where
  split : l = pre ++ f :: post
  type : Q f.type.variant t
  fallback : f.rule.hasFallback .out = fb
  value : member (tsCamel T f.name) o = some w
  rep : tRep .out H t x w
  others : ∀ g ∈ pre, hasProperty (o.map (·.1)) (tsCamel T g.name) = false
  size : (Ts.selAtlas fs.erase p).1 = Ts.fieldHeaderSize f.index (Ts.tSize t.erase (Ts.tAtlas t.erase x)) t.erase.integerEncoded +
    Ts.tSize t.erase (Ts.tAtlas t.erase x)
  atlas : ∀ H' L va, member (tsCamel T f.name) L = some va → tAtl H' t (Ts.tAtlas t.erase x) va → selAtl H' fs (Ts.selAtlas fs.erase p).2 L
  field : ∀ H' L, selAtl H' fs (Ts.selAtlas fs.erase p).2 L → ∃ va, member (tsCamel T f.name) L = some va ∧ tAtl H' t (Ts.tAtlas t.erase x) va
  ser : ∀ w, Ts.selSer fs.erase p (Ts.selAtlas fs.erase p).2 w =
    (Ts.put (Ts.serializeFieldHeader f.index (Ts.tSize t.erase (Ts.tAtlas t.erase x)) t.erase.integerEncoded) w).bind
      (Ts.tSer t.erase x (Ts.tAtlas t.erase x))

theorem selected {T : CharTable} {Q : TypeVariant → NTy → Prop} {H : Part} {o : List (Str × Val)} {fb : Bool} : {l : List Field} → {fs : NFields} →
    FieldsHave T Q l fs → (p : fs.erase.Sel .out fb) → selRep .out H fs p o → ∃ pre f post t x w, Selected T Q H o l fs p pre f post t x w
  | _, _, .nil, e, _ => e.elim
  | _, _, .cons (f := f) (t := t) (l := l) (fs := fs) hQ hF, .inl p, ⟨⟨w, h1, h2⟩, _⟩ =>
    ⟨[], f, l, t, p.val, w, ⟨rfl, hQ, p.ok, h1, h2, nofun, rfl, fun H' L va e1 e2 => ⟨va, e1, e2⟩, fun H' L h => h, fun _ => rfl⟩⟩
  | _, _, .cons (f := f) (t := t) (l := l) (fs := fs) hQ hF, .inr p, ⟨h1, h2⟩ => by
    obtain ⟨pre, g, post, t', x, w, h⟩ := selected hF p h2
    refine ⟨f :: pre, g, post, t', x, w, ⟨by rw [h.split]; rfl, h.type, h.fallback, h.value, h.rep, ?_, h.size, h.atlas, h.field, h.ser⟩⟩
    intro q hq
    cases List.mem_cons.mp hq with
    | inl e => subst e; exact h1 rfl
    | inr e => exact h.others q e

/-- The statements for fields which an object does not have do nothing. -/
theorem run_skipFields (c : Ctx) {T : CharTable} {G : Field → Stm} {B : Field → Stms} (hG : ∀ f, G f = .if_ (.has (tsCamel T f.name) (v .message)) (B f) .none)
    {o : List (Str × Val)} (post : List Stm) (env : Env) (h : List Obj) (sc : Nat → UInt8) (κ : Out → St → Option (Out × St))
    (he : lookup .message env = some (.obj o)) : (pre : List Field) → (∀ g ∈ pre, hasProperty (o.map (·.1)) (tsCamel T g.name) = false) →
    run ((Stms.ofList (pre.map G ++ post)).exec c) ⟨env, h, sc⟩ κ = run ((Stms.ofList post).exec c) ⟨env, h, sc⟩ κ
  | [], _ => rfl
  | f :: pre, hp => by
    rw [List.map_cons, List.cons_append, hG]
    tsrun [he, Val.has, hp f (List.mem_cons_self ..)]
    exact run_skipFields c hG post env h sc κ he pre fun g hg => hp g (List.mem_cons_of_mem _ hg)

theorem outFallback_eq (r : Rule) : outFallback r = r.hasFallback .out := by cases r <;> rfl

/-- The size in a choice's atlas. -/
def chainSize {α β : Type} : Chain (Nat × α) (Nat × β) → Nat
  | .last b => b.1
  | .more a _ => a.1

theorem chainAtlas_more {α β α' β' : Type} (f : α → Nat × α') (g : β → Nat × β') (a : α) (rest : Chain α β) :
    Ts.chainAtlas f g (.more a rest) = .more ((f a).1 + chainSize (Ts.chainAtlas f g rest), (f a).2) (Ts.chainAtlas f g rest) := by
  rw [Ts.chainAtlas]
  cases Ts.chainAtlas f g rest <;> rfl

theorem headOf {α β : Type} (c : Chain (Nat × α) (Nat × β)) {f : α → List (Str × Val) → Prop} {g : β → List (Str × Val) → Prop} {v : Val} (h : atlChain f g c v) :
    ∃ l, v = .obj l ∧ member "$size".toList l = some (natV (chainSize c)) := by
  cases c with
  | last b => obtain ⟨l, h1, h2, _⟩ := h; exact ⟨l, h1, h2⟩
  | more a b => obtain ⟨l, w, h1, h2, _⟩ := h; exact ⟨l, h1, h2⟩

section
variable {T : CharTable} {S : Schemas} {P : Prog}

theorem choiceAtlas_declared (s : Schema) (ns : Namespace) (l : List Field) : (choiceAtlas T s ns l).declared = [] := by
  unfold choiceAtlas
  rw [Stms.declared_append, declared_ofList_nil]
  · rfl
  · intro x hx
    rw [List.mem_map] at hx
    obtain ⟨f, _, rfl⟩ := hx
    rfl

theorem ofList_append (a b : List Stm) : Stms.ofList a ++ Stms.ofList b = Stms.ofList (a ++ b) := by
  induction a with
  | nil => rfl
  | cons x a ih =>
    show Stms.cons x (Stms.ofList a ++ Stms.ofList b) = _
    rw [ih]; rfl

theorem callFn_choiceAtlas {ns : Namespace} {s : Schema} {d : Declaration} {ns' : Namespace} (hR : Ready T S P ns s d ns') (hd : d.variant = .choice)
    {pre : List Field} {f : Field} {post : List Field} (hsplit : d.fields = pre ++ f :: post) {o : List (Str × Val)}
    (ho : ∀ g ∈ pre, hasProperty (o.map (·.1)) (tsCamel T g.name) = false) (n : Nat) (env : Env) (h : List Obj) (sc : Nat → UInt8) :
    callFn P (n + 1) (.decl (declPath T ns.components d) .atlas) [.obj o] ⟨env, h, sc⟩ =
      run ((choiceFieldAtlas T s ns' f).exec (ctx P (declPath T ns.components d) n)) ⟨[(.message, .let_ (.obj o))], h, sc⟩
        (thenK (fun _ => (Stms.ofList (post.map (choiceFieldAtlas T s ns') ++ [returnUnreachable])).exec (ctx P (declPath T ns.components d) n))
          (returnK env doneK)) := by
  refine (run_done _ _).symm.trans ?_
  rw [callFn_decl hR.code]
  have hb : (declCode T s ns' d).body .atlas = choiceAtlas T s ns' d.fields := by simp only [declCode, hd]
  rw [hb, choiceAtlas_declared, run_frame, if_pos ⟨rfl, by decide⟩]
  unfold choiceAtlas
  simp only [stms, ofList_append]
  rw [hsplit, List.map_append, List.append_assoc]
  refine (run_skipFields (T := T) _ (fun f => rfl) _ _ _ _ _ rfl pre ho).trans ?_
  rw [List.map_cons, List.cons_append, Stms.ofList, run_stms_cons]
  rfl

theorem atlasFn_choice (ns : Namespace) (s : Schema) (d : Declaration) (fs : NFields) {ns' : Namespace}
    (hR : Ready T S P ns s d ns') (hd : d.variant = .choice)
    (hF : FieldsHave T (fun tv t => NamedType T S ns s tv t ∧ AtlasOk T S P ns s tv t) d.fields fs) (H : Part) :
    (m : Chain (fs.erase.Sel .out true) (fs.erase.Sel .out false)) → ∀ (v : Val) (env : Env) (h : List Obj) (sc : Nat → UInt8),
    chainRep (selRep .out H fs) (selRep .out H fs) m v → H.In h →
    ∃ va h', h <+: h' ∧ atlChain (selAtl (from_ h.length h') fs) (selAtl (from_ h.length h') fs) (Ts.chainAtlas (Ts.selAtlas fs.erase) (Ts.selAtlas fs.erase) m) va ∧
      Ev fun n => callFn P n (.decl (declPath T ns.components d) .atlas) [v] ⟨env, h, sc⟩ = some (.val va, ⟨env, h', sc⟩)
  | .last p, v, env, h, sc, ⟨o, hv, hm⟩, hH => by
    subst hv
    obtain ⟨pre, f, post, t, x, w, hs⟩ := selected hF p hm
    have hf : f ∈ d.fields := by rw [hs.split]; simp
    obtain ⟨va, h', h1, h2, N, h3⟩ := hs.type.2 ns' _ true x w ((.payloadAtlas, .let_ .undef) :: (.payload, .const w) :: (.payloadSize, .uninit) ::
      (.message, .let_ (.obj o)) :: []) h sc H hR.clear (hR.resolves f hf) hs.rep hH (by tsrun) (by tsrun)
    rw [atlasOf_true] at h2
    have hno := hR.names.other f hf
    refine ⟨.obj [("$size".toList, natV (Ts.selAtlas fs.erase p).1), (tsCamel T f.name, va)], h', h1, ⟨_, rfl, rfl, hs.atlas _ _ va ?_ h2⟩, N + 18, fun n hn => ?_⟩
    · rw [member, if_neg (fun e => hno (by rw [← e]; exact List.mem_cons_self ..)), member, if_pos rfl]
    obtain ⟨n, rfl⟩ : ∃ q, n = q + 1 := ⟨n - 1, by omega⟩
    rw [callFn_choiceAtlas hR hd hs.split hs.others]
    have hfb : outFallback f.rule = false := (outFallback_eq _).trans hs.fallback
    unfold choiceFieldAtlas
    rw [hfb]
    tsrun [atlasCalculation_declared, messageField, Val.has, hasProperty_member hs.value, run_member hs.value]
    refine (run_eq (h3 n (by omega)) _).trans ?_
    tsrun
    rw [run_atlasLookup hs.type.1 h2 (by tsrun)]
    tsrun [headerSize, hs.type.1.integerEncoded, hR.clear.runtime, run_eq (callFn_fieldHeaderSize hR.clear.top (show 17 ≤ n by omega) _ _ _ _), hs.size]
  | .more p rest, v, env, h, sc, ⟨o, fw, hv, hm, hfw, hrest⟩, hH => by
    subst hv
    obtain ⟨pre, f, post, t, x, w, hs⟩ := selected hF p hm
    have hf : f ∈ d.fields := by rw [hs.split]; simp
    obtain ⟨va, h1, hp1, hva, N, h3⟩ := hs.type.2 ns' _ true x w ((.payloadAtlas, .let_ .undef) :: (.payload, .const w) :: (.payloadSize, .uninit) ::
      (.fallbackAtlas, .uninit) :: (.message, .let_ (.obj o)) :: []) h sc H hR.clear (hR.resolves f hf) hs.rep hH (by tsrun) (by tsrun)
    rw [atlasOf_true] at hva
    obtain ⟨vf, h', hp2, hvf, N2, h4⟩ := atlasFn_choice ns s d fs hR hd hF H rest fw ((.payloadAtlas, .let_ va) :: (.payload, .const w) ::
      (.payloadSize, .const (natV (Ts.tSize t.erase (Ts.tAtlas t.erase x)))) :: (.fallbackAtlas, .uninit) :: (.message, .let_ (.obj o)) :: [])
      h1 sc hrest (hH.prefix hp1)
    obtain ⟨lf, rfl, hsz⟩ := headOf _ hvf
    have hno := hR.names.other f hf
    have hlen := prefix_length hp1
    rw [chainAtlas_more]
    refine ⟨.obj [("$size".toList, natV ((Ts.selAtlas fs.erase p).1 + chainSize (Ts.chainAtlas (Ts.selAtlas fs.erase) (Ts.selAtlas fs.erase) rest))), (tsCamel T f.name, va), ("$fallback".toList, .obj lf)], h', hp1.trans hp2, ⟨_, .obj lf, rfl, by rw [member, if_pos rfl], hs.atlas _ _ va ?_ ?_, ?_, ?_⟩,
      N + N2 + 18, fun n hn => ?_⟩
    · rw [member, if_neg (fun e => hno (by rw [← e]; exact List.mem_cons_self ..)), member, if_pos rfl]
    · exact tAtl_mono (from_le (Nat.le_refl _) hp2) t _ _ hva
    · rw [member, if_neg (by decide), member, if_neg (fun e => hno (by rw [e]; simp)), member, if_pos rfl]
    · exact atlChain_imp (fun a l => selAtl_mono (from_le hlen List.prefix_rfl) fs a l) (fun a l => selAtl_mono (from_le hlen List.prefix_rfl) fs a l) hvf
    obtain ⟨n, rfl⟩ : ∃ q, n = q + 1 := ⟨n - 1, by omega⟩
    rw [callFn_choiceAtlas hR hd hs.split hs.others]
    have hfb : outFallback f.rule = true := (outFallback_eq _).trans hs.fallback
    unfold choiceFieldAtlas
    rw [hfb]
    tsrun [atlasCalculation_declared, messageField, Val.has, hasProperty_member hs.value, run_member hs.value]
    refine (run_eq (h3 n (by omega)) _).trans ?_
    tsrun
    rw [run_atlasLookup hs.type.1 hva (by tsrun)]
    tsrun [Ex.fallback, run_member hfw]
    rw [if_neg (by simp [hides_eq])]
    tsrun [run_member hfw, run_eq (h4 n (by omega)), Ex.size, run_member hsz,
      headerSize, hs.type.1.integerEncoded, hR.clear.runtime, run_eq (callFn_fieldHeaderSize hR.clear.top (show 17 ≤ n by omega) _ _ _ _), hs.size]

/-- The generated `atlas` functions. -/
theorem atlas_ok (hP : Implements T S P) {k : List Str × Str} {c : NCTy} (h : Named T S k c) : AtlasFnOk P c := by
  refine Named.induct (QC := AtlasFnOk P) (QT := AtlasOk T S P) ?_ ?_ atlasOk_unit atlasOk_scalar atlasOk_bytes atlasOk_string atlasOk_units
    ?_ atlasOk_array atlasOk_custom h
  · intro k ns s d fs h1 h2 _ h4
    obtain ⟨ns', hR⟩ := hP k ns s d h1
    exact atlasFn_struct k ns s d fs hR h2 h4
  · intro k ns s d fs h1 h2 _ h4
    obtain ⟨ns', hR⟩ := hP k ns s d h1
    intro isField m v env h sc H hm hH
    exact atlasFn_choice ns s d fs hR h2 h4 H m v env h sc hm hH
  · intro ns s r inner sc h1 _
    exact atlasOk_scalars ns s r inner sc h1
end

end Typical.TsGen

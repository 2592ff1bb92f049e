import Verif.TsGen.AtlasChoice
import Verif.TsGen.SerDecl
import Verif.TsGen.DesChoice

/-!
# Helper: the functions `size`, `serialize` and `deserialize` of generated TypeScript code
-/

namespace Typical.TsGen

open Gen (NCTy NTy NFields DeclName FieldName Ev)

section
variable {T : CharTable} {S : Schemas} {P : Prog}

theorem run_size {S : Schemas} {k : List Str × Str} {c : NCTy} (h2 : Named T S k c) {H : Part} {a : Ts.CAtlas c.erase} {va : Val}
    (hva : cAtl H c a va) (st : St) (κ : Out → St → Option (Out × St)) :
    run (Val.prop "$size".toList va) st κ = κ (.val (natV (Ts.cSize c.erase a))) st := by
  cases h2 with
  | struct =>
    obtain ⟨l, rfl, e2, e3⟩ := hva
    exact run_member (κ := κ) e2 _
  | choice =>
    cases a with
    | last b =>
      obtain ⟨l, rfl, e2, e3⟩ := hva
      exact run_member (κ := κ) e2 _
    | more a b =>
      obtain ⟨l, w, rfl, e2, e3⟩ := hva
      exact run_member (κ := κ) e2 _

theorem named_decl {k : List Str × Str} {c : NCTy} (h : Named T S k c) : ∃ ns s d, S.Declares k ns s d ∧ c.path = declPath T ns.components d ∧
    (d.fields = [] → ∀ m : c.erase.Msg .out, d.variant = .struct ∧ Ts.size c.erase m = 0) := by
  cases h with
  | @struct _ ns s d fs h1 h2 h3 =>
    refine ⟨ns, s, d, h1, rfl, fun he => ?_⟩
    rw [he] at h3
    cases h3
    exact fun m => ⟨h2, rfl⟩
  | @choice _ ns s d fs h1 h2 h3 =>
    refine ⟨ns, s, d, h1, rfl, fun he => ?_⟩
    rw [he] at h3
    cases h3
    intro m
    cases m with
    | last b => exact b.elim
    | more a b => exact a.elim

/-- The generated `size` functions. -/
theorem size_ok (hP : Implements T S P) {k : List Str × Str} {c : NCTy} (hk : Named T S k c) {m : c.erase.Msg .out} {x : Val} {h : List Obj}
    {H : Part} (hm : cRep .out H c m x) (hH : H.In h) (env : Env) (sc : Nat → UInt8) :
    ∃ h', h <+: h' ∧ Ev fun n => callFn P n (.decl c.path .size) [x] ⟨env, h, sc⟩ = some (.val (natV (Ts.size c.erase m)), ⟨env, h', sc⟩) := by
  obtain ⟨ns, s, d, h1, hp, he⟩ := named_decl hk
  obtain ⟨ns', hR⟩ := hP _ _ _ _ h1
  have hb : (declCode T s ns' d).body .size = sizeFunction d.fields := by simp only [declCode]
  cases hf : d.fields with
  | nil =>
    refine ⟨h, List.prefix_rfl, 1, fun n hn => ?_⟩
    obtain ⟨n, rfl⟩ : ∃ j, n = j + 1 := ⟨n - 1, by omega⟩
    refine (run_done _ _).symm.trans ?_
    rw [hp, callFn_decl hR.code, hb, (he hf m).2, hf]
    tsrun [sizeFunction, List.isEmpty_nil, Fn.params]
  | cons f l =>
    obtain ⟨va, h', hp', hva, N, hev⟩ := atlas_ok hP hk false m x [(.message, .let_ x)] h sc H hm hH
    refine ⟨h', hp', N + 1, fun n hn => ?_⟩
    obtain ⟨n, rfl⟩ : ∃ j, n = j + 1 := ⟨n - 1, by omega⟩
    refine (run_done _ _).symm.trans ?_
    rw [hp] at hev ⊢
    rw [callFn_decl hR.code, hb, hf]
    tsrun [sizeFunction, List.isEmpty_cons, Fn.params, Ex.size]
    rw [if_neg (by simp [hides_eq])]
    tsrun [run_eq (hev n (by omega)), run_size hk hva]
    rfl

theorem run_newBuffer (n : Nat) (env : Env) (h : List Obj) (sc : Nat → UInt8) (κ : Out → St → Option (Out × St)) :
    run (Builtin.construct .arrayBuffer [natV n]) ⟨env, h, sc⟩ κ = κ (.val (.buf h.length)) ⟨env, h ++ [.buf (List.replicate n 0)], sc⟩ := by
  simp only [Builtin.construct]
  rw [run_ite, if_pos (by simp), run_alloc, Int.toNat_natCast]

theorem run_newDataView {h : List Obj} {r : Nat} {b : Bytes} (hr : h[r]? = some (.buf b)) (env : Env) (sc : Nat → UInt8)
    (κ : Out → St → Option (Out × St)) :
    run (Builtin.construct .dataView [.buf r]) ⟨env, h, sc⟩ κ = κ (.val (.view r 0 b.length)) ⟨env, h, sc⟩ := by
  simp only [Builtin.construct]
  rw [run_withBuf, hr, bufK_some, run_pure]

/-- The generated `serialize` functions. -/
theorem serialize_ok (hP : Implements T S P) {k : List Str × Str} {c : NCTy} (hk : Named T S k c) {m : c.erase.Msg .out} {x : Val} {h : List Obj}
    {H : Part} (hm : cRep .out H c m x) (hH : H.In h) {b : Bytes} (hs : Ts.serialize c.erase m = some b) (env : Env) (sc : Nat → UInt8) :
    ∃ h' r, h <+: h' ∧ h.length ≤ r ∧ h'[r]? = some (.buf b) ∧
      Ev fun n => callFn P n (.decl c.path .serialize) [x] ⟨env, h, sc⟩ = some (.val (.buf r), ⟨env, h', sc⟩) := by
  obtain ⟨ns, s, d, h1, hp, he⟩ := named_decl hk
  obtain ⟨ns', hR⟩ := hP _ _ _ _ h1
  have hb : (declCode T s ns' d).body .serialize = serializeFunction d.variant d.fields := by simp only [declCode]
  have hne : ¬ (d.variant = .choice ∧ d.fields.isEmpty = true) := fun ⟨e1, e2⟩ => by
    have := (he (List.isEmpty_iff.mp e2) m).1
    rw [e1] at this
    cases this
  obtain ⟨va, h', hp', hva, N, hev⟩ := atlas_ok hP hk false m x
    [(.messageAtlas, .uninit), (.arrayBuffer, .uninit), (.dataView, .uninit), (.message, .let_ x)] h sc H hm hH
  unfold Ts.serialize at hs
  simp only at hs
  generalize hsz : Ts.cSize c.erase (Ts.cAtlas false c.erase m) = z at hs
  cases hw : Ts.cSer false c.erase m (Ts.cAtlas false c.erase m) ⟨List.replicate z 0, 0⟩ with
  | none => rw [hw] at hs; cases hs
  | some w' =>
  rw [hw] at hs
  cases hs
  let h2 := h' ++ [.buf (List.replicate z 0)]
  have hp2 : h <+: h2 := hp'.trans (List.prefix_append _ _)
  have hlen : h.length ≤ h'.length := hp'.length_le
  have hg : h2[h'.length]? = some (.buf (List.replicate z 0)) := by simp [h2]
  have hg' : (h' ++ [Obj.buf (List.replicate z 0)])[h'.length]? = some (.buf (List.replicate z 0)) := hg
  have hH2 : Part.In (fun k => h'[k]?) h2 := Part.In.prefix (H := fun k => h'[k]?) (fun _ _ h => h) (List.prefix_append _ _)
  have hle : Part.Le H (fun k => h'[k]?) := fun k o hk => hH.prefix hp' k o hk
  have hle2 : Part.Le (from_ h.length h') (fun k => h'[k]?) := from_in _ _
  obtain ⟨hl, N2, hev2⟩ := ser_ok hP hk false m x va
    [(.messageAtlas, .const va), (.arrayBuffer, .const (.buf h'.length)), (.dataView, .const (.view h'.length 0 (List.replicate z (0 : UInt8)).length)), (.message, .let_ x)]
    h2 sc _ h'.length (List.replicate z (0 : UInt8)).length _ w' (cRep_mono hle c m x hm) (cAtl_mono hle2 c _ va hva) hH2 (by simp) hg rfl hw
  refine ⟨h2.set h'.length (.buf w'.buf), h'.length, prefix_set hp2 hlen _, hlen, by simp [h2], N + N2 + 1, fun n hn => ?_⟩
  obtain ⟨n, rfl⟩ : ∃ j, n = j + 1 := ⟨n - 1, by omega⟩
  refine (run_done _ _).symm.trans ?_
  rw [hp] at hev hev2 ⊢
  rw [callFn_decl hR.code, hb]
  simp only [serializeFunction]
  rw [if_neg hne]
  tsrun [Fn.params, Ex.size]
  rw [if_neg (by simp [hides_eq])]
  tsrun [run_eq (hev n (by omega)), run_size hk hva, hsz, hR.clear.root, run_newBuffer, run_newDataView hg']
  rw [if_neg (by simp [hides_eq])]
  refine (run_eq (hev2 n (by omega)) _).trans ?_
  tsrun

/-- What the `deserialize` functions get: the value gives this window into a buffer. -/
inductive Input (h : List Obj) : Val → Ts.View → Prop
  | buffer {r b} : h[r]? = some (.buf b) → Input h (.buf r) ⟨b, 0, b.length⟩
  | view {r b base len} : h[r]? = some (.buf b) → base + len ≤ b.length → Input h (.view r base len) ⟨b, base, len⟩
  | typed {r b base len} : h[r]? = some (.buf b) → base + len ≤ b.length → Input h (.typed r base len) ⟨b, base, len⟩

/-- How a `deserialize` function ends. -/
def Parses (P : Prog) (c : NCTy) (env : Env) (h : List Obj) (sc : Nat → UInt8) (x : Val) : Except Ts.Err (c.erase.Msg .inn) → Prop
  | .ok m => ∃ y h' sc', h <+: h' ∧ cRep .inn (from_ h.length h') c m y ∧
      Ev fun n => callFn P n (.decl c.path .deserialize) [x] ⟨env, h, sc⟩ = some (.val y, ⟨env, h', sc'⟩)
  | .error e => e ≠ .fuel → ∃ h' sc', h <+: h' ∧
      Ev fun n => callFn P n (.decl c.path .deserialize) [x] ⟨env, h, sc⟩ = some (.val (.err e), ⟨env, h', sc'⟩)

theorem deserialize_call {c : NCTy} {s : Schema} {ns' : Namespace} {d : Declaration} (hc : P.code c.path = some (declCode T s ns' d).body)
    (hcl : P.Clear c.path) {h : List Obj} {sc : Nat → UInt8} {x : Val} {w : Ts.View} (hi : Input h x w) (env : Env) :
    (∃ r, h[r]? = some (.buf w.buf) ∧ w.base + w.len ≤ w.buf.length ∧
    (∀ h' sc' o, (Ev fun n => callFn P n (.decl c.path .deserializeUnsafe) [.view r w.base w.len] ⟨[(.bytes, .let_ x)], h, sc⟩ =
      some (o, ⟨[(.bytes, .let_ x)], h', sc'⟩)) →
    (∀ y, o = .val y → Ev fun n => callFn P n (.decl c.path .deserialize) [x] ⟨env, h, sc⟩ = some (.val y, ⟨env, h', sc'⟩)) ∧
    (∀ e, o = .throw e → Ev fun n => callFn P n (.decl c.path .deserialize) [x] ⟨env, h, sc⟩ = some (.val (.err e), ⟨env, h', sc'⟩)))) := by
  have hb : (declCode T s ns' d).body .deserialize = deserializeFunction := by simp only [declCode]
  cases hi with
  | @buffer r b hr =>
    refine ⟨r, hr, by simp, fun h' sc' o ⟨N, hev⟩ => ⟨?_, ?_⟩⟩
    all_goals
      rintro y rfl
      refine ⟨N + 1, fun n hn => ?_⟩
      obtain ⟨n, rfl⟩ : ∃ j, n = j + 1 := ⟨n - 1, by omega⟩
      refine (run_done _ _).symm.trans ?_
      rw [callFn_decl hc, hb]
      tsrun [deserializeFunction, Fn.params, hcl.root, Val.isA]
      rw [if_neg (by simp [hides_eq])]
      tsrun [hcl.root, run_newDataView hr]
      refine (run_eq (hev n (by omega)) _).trans ?_
      tsrun
  | @view r b base len hr hb' =>
    refine ⟨r, hr, hb', fun h' sc' o ⟨N, hev⟩ => ⟨?_, ?_⟩⟩
    all_goals
      rintro y rfl
      refine ⟨N + 1, fun n hn => ?_⟩
      obtain ⟨n, rfl⟩ : ∃ j, n = j + 1 := ⟨n - 1, by omega⟩
      refine (run_done _ _).symm.trans ?_
      rw [callFn_decl hc, hb]
      tsrun [deserializeFunction, Fn.params, hcl.root, Val.isA]
      rw [if_neg (by simp [hides_eq])]
      refine (run_eq (hev n (by omega)) _).trans ?_
      tsrun
  | @typed r b base len hr hb' =>
    refine ⟨r, hr, hb', fun h' sc' o ⟨N, hev⟩ => ⟨?_, ?_⟩⟩
    all_goals
      rintro y rfl
      refine ⟨N + 1, fun n hn => ?_⟩
      obtain ⟨n, rfl⟩ : ∃ j, n = j + 1 := ⟨n - 1, by omega⟩
      refine (run_done _ _).symm.trans ?_
      rw [callFn_decl hc, hb]
      tsrun [deserializeFunction, Fn.params, hcl.root, Val.isA]
      rw [if_neg (by simp [hides_eq])]
      tsrun [hcl.root, Ex.buffer, Ex.byteOffset, Ex.byteLength, run_newView_some hr _ _ _ hb']
      refine (run_eq (hev n (by omega)) _).trans ?_
      tsrun

/-- The generated `deserialize` functions. -/
theorem deserialize_ok (hP : Implements T S P) {k : List Str × Str} {c : NCTy} (hk : Named T S k c) {x : Val} {h : List Obj} {w : Ts.View}
    (hi : Input h x w) (env : Env) (sc : Nat → UInt8) : Parses P c env h sc x (Ts.deserializeView c.erase w) := by
  obtain ⟨ns, s, d, h1, hp, -⟩ := named_decl hk
  obtain ⟨ns', hR⟩ := hP _ _ _ _ h1
  have hc : P.code c.path = some (declCode T s ns' d).body := by rw [hp]; exact hR.code
  have hcl : P.Clear c.path := by rw [hp]; exact hR.clear
  obtain ⟨r, hr, hw, hcall⟩ := deserialize_call hc hcl (sc := sc) hi env
  have hdes := des_ok hP hk false w.len [(.bytes, .let_ x)] h sc r w hr hw
  unfold Ts.deserializeView
  cases hd : Ts.cDeser false c.erase w.len w with
  | error e =>
    rw [hd] at hdes
    intro he
    obtain ⟨h', sc', hp', hev⟩ := hdes he
    exact ⟨h', sc', hp', (hcall h' sc' _ hev).2 e rfl⟩
  | ok p =>
    rw [hd] at hdes
    obtain ⟨o, m⟩ := p
    obtain ⟨-, y, h', sc', hp', hy, hev⟩ := hdes
    exact ⟨y, h', sc', hp', hy, (hcall h' sc' _ hev).1 y rfl⟩

end

end Typical.TsGen

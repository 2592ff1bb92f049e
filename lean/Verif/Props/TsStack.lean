import Verif.TsGen.DepthProof
import Verif.Props.GeneratedTypeScript
import Verif.Props.Depth

/-!
# Properties C77 and C78: generated TypeScript code on a stack which is limited

`CallsLimited` is `Calls` (`Verif.Props.GeneratedTypeScript`) on a machine whose stack has some size: `cost f` is the size of a stack frame of the function
`f`, and a call for which there is not enough left throws a `RangeError`, as in V8 (`Verif.TsGen.Stack`). The costs can be any numbers.
-/

namespace Typical

open TsGen

/-- A call with `room` left on the stack ends with this outcome. -/
def CallsLimited (P : Prog) (cost : Callee → Nat) (room : Nat) (path : List Str) (f : Fn) (args : List Val) (h : List Obj) (scratch : Nat → UInt8)
    (r : Out) (h' : List Obj) (scratch' : Nat → UInt8) : Prop :=
  ∃ N, ∀ n, N ≤ n → callLimited P cost n room (.decl path f) args ⟨[], h, scratch⟩ = some (r, ⟨[], h', scratch'⟩)

/-- The outcome of a call is unique. -/
theorem C77_unique {P : Prog} {cost : Callee → Nat} {room : Nat} {path : List Str} {f : Fn} {args : List Val} {h h' h'' : List Obj}
    {sc sc' sc'' : Nat → UInt8} {r r' : Out} (h1 : CallsLimited P cost room path f args h sc r h' sc')
    (h2 : CallsLimited P cost room path f args h sc r' h'' sc'') : r = r' ∧ h' = h'' ∧ sc' = sc'' := by
  obtain ⟨N, h1⟩ := h1
  obtain ⟨N', h2⟩ := h2
  have h := h1 (max N N') (by omega)
  rw [h2 (max N N') (by omega)] at h
  cases h
  exact ⟨rfl, rfl, rfl⟩

theorem TsGen.M.frame_env {params : List TVar} {args : List Val} {xs : List TVar} {m : M} {s : St} {r : Out × St}
    (h : M.frame params args xs m s = some r) : r.2.env = s.env := by
  unfold M.frame at h
  split at h
  · split at h <;> first | (cases h; rfl) | cases h
  · cases h

/-- A call leaves the variables of the caller alone. -/
theorem TsGen.callLimited_env {P : Prog} {cost : Callee → Nat} {n room : Nat} {f : Callee} {args : List Val} {s : St} {r : Out × St}
    (h : callLimited P cost n room f args s = some r) : r.2.env = s.env := by
  cases n with
  | zero => cases h
  | succ n =>
    rw [callLimited] at h
    split at h
    · cases h; rfl
    · unfold Prog.enter at h
      cases hb : P.body f with
      | none => rw [hb] at h; cases h
      | some b => rw [hb] at h; exact M.frame_env h

theorem CallsLimited.of_run {P : Prog} {cost : Callee → Nat} {room n : Nat} {path : List Str} {f : Fn} {args : List Val} {h : List Obj}
    {sc : Nat → UInt8} {r : Out} {s : St} (h1 : callLimited P cost n room (.decl path f) args ⟨[], h, sc⟩ = some (r, s)) :
    CallsLimited P cost room path f args h sc r s.heap s.scratch := by
  refine ⟨n, fun n' hn => ?_⟩
  have he := callLimited_env h1
  rw [(callLimited_mono P cost n n' room hn (.decl path f) args).some h1]
  obtain ⟨e, g, c⟩ := s
  cases he
  rfl

theorem Calls.of_run {P : Prog} {n : Nat} {path : List Str} {f : Fn} {args : List Val} {h : List Obj}
    {sc : Nat → UInt8} {r : Out} {s : St} (h1 : callFn P n (.decl path f) args ⟨[], h, sc⟩ = some (r, s)) :
    Calls P path f args h sc r s.heap s.scratch := by
  refine ⟨n, fun n' hn => ?_⟩
  have he : s.env = [] := by
    cases n with
    | zero => cases h1
    | succ n =>
      rw [callFn_body] at h1
      unfold Prog.enter at h1
      cases hb : P.body (.decl path f) with
      | none => rw [hb] at h1; cases h1
      | some b => rw [hb] at h1; exact M.frame_env h1
  rw [(callFn_mono P n n' hn (.decl path f) args).some h1]
  obtain ⟨e, g, c⟩ := s
  cases he
  rfl

/-- **C77 (serialization).** Whatever the size of the stack, `size` and `serialize` end as they would without a limit, and so with what C72 says; or throw a
`RangeError`. A stack overflow never makes them return a wrong size or a wrong buffer. -/
theorem C77_serialize {T : CharTable} {S : Schemas} (cost : Callee → Nat) (room : Nat) {path : List Str} {f : Fn} (hf : f = .size ∨ f = .serialize)
    {args : List Val} {h h' : List Obj} {scratch scratch' : Nat → UInt8} {r : Out}
    (hc : Calls (program T S) path f args h scratch r h' scratch') :
    CallsLimited (program T S) cost room path f args h scratch r h' scratch' ∨
      ∃ h'' scratch'', CallsLimited (program T S) cost room path f args h scratch (.throw .range) h'' scratch'' := by
  obtain ⟨N, hN⟩ := hc
  have hs := callLimited_throwing (throwing_ser T S) cost N room (.decl path f) args (by rcases hf with rfl | rfl <;> rfl)
  rcases hs.overflow (hN N (Nat.le_refl _)) with h1 | ⟨s', h1⟩
  · exact .inl (.of_run h1)
  · exact .inr ⟨s'.heap, s'.scratch, .of_run h1⟩

/-- **C77 (serialization).** The same, together with C72. -/
theorem C77_serialize_bytes {T : CharTable} {S : Schemas} (hA : TsAccepted T S) {k : List Str × Str} {c : CTy} (hc : S.Denotes k c) {ns : Namespace}
    {s : Schema} {d : Declaration} (hd : S.Declares k ns s d) {h : List Obj} {v : Val} {t : Tree} (hv : JsHolds T S .out (fun r => h[r]?) k v t)
    (hsz : (t.wire false).length < 2 ^ 64) (scratch : Nat → UInt8) (cost : Callee → Nat) (room : Nat) {r : Out} {h' : List Obj} {scratch' : Nat → UInt8}
    (hr : CallsLimited (program T S) cost room (declPath T ns.components d) .serialize [v] h scratch r h' scratch') :
    r = .throw .range ∨ ∃ i, r = .val (.buf i) ∧ h'[i]? = some (.buf (t.wire false)) ∧ h <+: h' := by
  obtain ⟨-, h2, i, g1, -, g3, g4⟩ := C72_serialize hA hc hd hv hsz scratch
  rcases C77_serialize cost room (.inr rfl) g4 with h1 | ⟨_, _, h1⟩
  · obtain ⟨rfl, rfl, rfl⟩ := C77_unique hr h1
    exact .inr ⟨i, rfl, g3, g1⟩
  · exact .inl (C77_unique hr h1).1

/-- **C77 (enough).** For every call which ends there is a size of the stack from which on the limit makes no difference. -/
theorem C77_enough {P : Prog} {cost : Callee → Nat} {C : Nat} (hC : ∀ f, cost f ≤ C) {path : List Str} {f : Fn} {args : List Val} {h h' : List Obj}
    {scratch scratch' : Nat → UInt8} {r : Out} (hc : Calls P path f args h scratch r h' scratch') :
    ∃ R, ∀ room, R ≤ room → CallsLimited P cost room path f args h scratch r h' scratch' := by
  obtain ⟨N, hN⟩ := hc
  exact ⟨N * C, fun room hr => .of_run ((callLimited_enough hC N room hr _ _).some (hN N (Nat.le_refl _)))⟩

/-- The body of `deserialize` catches every exception. -/
theorem TsGen.deserializeFunction_quiet (c : Ctx) (s : St) (e : Ts.Err) (s' : St) : deserializeFunction.exec c s ≠ some (.throw e, s') := by
  have hb : ∀ (e : Ts.Err) (s : St), M.scoped [(TVar.e, .let_ (.err e))]
      (M.block (Stms.cons (.return_ (.as_ (v .e) "Error".toList)) .nil).declared
        ((Stms.cons (.return_ (.as_ (v .e) "Error".toList)) .nil).exec c)) s = some (.ret (.err e), s) := fun _ _ => rfl
  change M.bind (M.tryCatch _ _) (fun _ => M.skip) s ≠ _
  generalize M.block (Stms.declared _) (Stms.exec c (stms [Stm.if_ _ _ _, _, _])) = A
  unfold M.bind M.tryCatch
  cases hA : A s with
  | none => nofun
  | some p =>
    obtain ⟨o, s1⟩ := p
    cases o with
    | throw e1 =>
      have := hb e1 s1
      dsimp only
      erw [this]
      nofun
    | _ => nofun

/-- **C77 (never an exception).** With enough of the stack for its own frame, `deserialize` never throws: also when it runs out of stack later. -/
theorem C77_no_throw {T : CharTable} {S : Schemas} (cost : Callee → Nat) (room : Nat) (path : List Str) (args : List Val) (h h' : List Obj)
    (scratch scratch' : Nat → UInt8) (hr : cost (.decl path .deserialize) ≤ room) (e : Ts.Err) :
    ¬ CallsLimited (program T S) cost room path .deserialize args h scratch (.throw e) h' scratch' := by
  rintro ⟨N, hN⟩
  have h1 := hN (N + 1) (by omega)
  rw [callLimited, if_neg (by omega)] at h1
  simp only [Prog.enter, Prog.body] at h1
  cases hc : (program T S).code path with
  | none => rw [hc] at h1; cases h1
  | some code =>
    rw [hc] at h1
    obtain ⟨s, ns, d, rfl⟩ := program_generated T S path code hc
    simp only [Option.map_some] at h1
    unfold M.frame at h1
    split at h1
    · split at h1 <;> cases h1
      rename_i hx
      exact deserializeFunction_quiet _ _ _ _ hx
    · cases h1

/-- **C78.** If no choice of the type of a declaration has an optional field, then there is a size of the stack, which depends only on how deeply the
types of the schema are nested, with which `deserialize` never runs out of stack: it ends as without a limit, for every input. -/
theorem C78_bounded {T : CharTable} {S : Schemas} (hA : TsAccepted T S) {k : List Str × Str} {c : CTy} (hc : S.Denotes k c) {ns : Namespace}
    {s : Schema} {d : Declaration} (hd : S.Declares k ns s d) (hno : c.NoOptionalChoice) {cost : Callee → Nat} {C : Nat} (hC : ∀ f, cost f ≤ C)
    {room : Nat} (hroom : (c.height + 4) * C ≤ room) {h : List Obj} {x : Val} {before b after : Bytes} (hi : JsInput h x before b after)
    (scratch : Nat → UInt8) :
    ∃ r h' scratch', Calls (program T S) (declPath T ns.components d) .deserialize [x] h scratch (.val r) h' scratch' ∧
      CallsLimited (program T S) cost room (declPath T ns.components d) .deserialize [x] h scratch (.val r) h' scratch' := by
  have key : ∀ r h' scratch', Calls (program T S) (declPath T ns.components d) .deserialize [x] h scratch r h' scratch' →
      CallsLimited (program T S) cost room (declPath T ns.components d) .deserialize [x] h scratch r h' scratch' := by
    rintro r h' sc' ⟨N, hN⟩
    obtain ⟨N', hN', rfl, hw, hp⟩ := hA.named hc hd
    have := (deserialize_needs hC hA.implements hN' hno hw).mono hroom
    rw [hp] at this
    exact .of_run ((callLimited_needs N room _ [x] this).some (hN N (Nat.le_refl _)))
  rcases C73_deserialize hA hc hd hi scratch with ⟨m, y, h', sc', -, -, -, h3⟩ | ⟨e, h', sc', -, -, -, h3⟩
  · exact ⟨_, h', sc', h3, key _ _ _ h3⟩
  · exact ⟨_, h', sc', h3, key _ _ _ h3⟩

/-! ### Examples -/

/-- `struct settings { optional x: U64 = 0 }` -/
def settingsSchemas : Schemas :=
  [(⟨[ident "main"]⟩, ⟨[], [], [⟨⟨0, 0⟩, [], .struct, ident "settings", [exampleField "x" .optional .u64 0], []⟩]⟩)]

theorem settingsSchemas_accepted : TsAccepted asciiTable settingsSchemas :=
  C72_names asciiTable_ascii _ (by constructor <;> decide +kernel) (by decide +kernel) (clearSchemas_spec (by decide +kernel))

/-- What `x` is, in the result of `deserialize`. -/
def settingsX : Option (Out × St) → Option (Option Int)
  | some (.val (.obj [(_, .big x)]), _) => some (some x)
  | some (.val (.obj [(_, .undef)]), _) => some none
  | _ => none

theorem settingsX_some {r : Option (Out × St)} {x : Int} (h : settingsX r = some (some x)) : ∃ y s, r = some (.val (.obj [(y, .big x)]), s) := by
  unfold settingsX at h
  split at h
  · cases h; exact ⟨_, _, rfl⟩
  · cases h
  · cases h

theorem settingsX_none {r : Option (Out × St)} (h : settingsX r = some none) : ∃ y s, r = some (.val (.obj [(y, .undef)]), s) := by
  unfold settingsX at h
  split at h
  · cases h
  · exact ⟨_, _, rfl⟩
  · cases h

/-- The bytes for `{ x: 5n }`. -/
def settingsBytes : Bytes := (Tree.fields [(0, .scalar .u64 (5 : UInt64))]).wire false

/-- **C77 fails for `deserialize`.** The loop of a struct takes every `RangeError` for the end of the input (lines 855-876), also the one for a stack overflow. So a
message which is read completely when the stack is large is accepted with a missing field when the stack is almost used up; with a little less of the
stack, or more, there is an error, or the field (see the examples below). -/
theorem C77_overflow_witness :
    ∃ cost : Callee → Nat, (∀ f, cost f = 1) ∧
      (∃ y h' sc', Calls (program asciiTable settingsSchemas) ["Main".toList, "Settings".toList] .deserialize [.buf 0] [.buf settingsBytes] (fun _ => 0)
        (.val (.obj [(y, .big 5)])) h' sc') ∧
      (∃ y h' sc', CallsLimited (program asciiTable settingsSchemas) cost 3 ["Main".toList, "Settings".toList] .deserialize [.buf 0]
        [.buf settingsBytes] (fun _ => 0) (.val (.obj [(y, .undef)])) h' sc') := by
  refine ⟨fun _ => 1, fun _ => rfl, ?_, ?_⟩
  · have h : settingsX (callFn (program asciiTable settingsSchemas) 40 (.decl ["Main".toList, "Settings".toList] .deserialize) [.buf 0]
        ⟨[], [.buf settingsBytes], fun _ => 0⟩) = some (some 5) := by decide +kernel
    obtain ⟨y, s, h⟩ := settingsX_some h
    exact ⟨y, s.heap, s.scratch, .of_run h⟩
  · have h : settingsX (callLimited (program asciiTable settingsSchemas) (fun _ => 1) 40 3 (.decl ["Main".toList, "Settings".toList] .deserialize) [.buf 0]
        ⟨[], [.buf settingsBytes], fun _ => 0⟩) = some none := by decide +kernel
    obtain ⟨y, s, h⟩ := settingsX_none h
    exact ⟨y, s.heap, s.scratch, .of_run h⟩

example : settingsX (callLimited (program asciiTable settingsSchemas) (fun _ => 1) 40 1 (.decl ["Main".toList, "Settings".toList] .deserialize) [.buf 0]
      ⟨[], [.buf settingsBytes], fun _ => 0⟩) = none := by decide +kernel
example : settingsX (callLimited (program asciiTable settingsSchemas) (fun _ => 1) 40 5 (.decl ["Main".toList, "Settings".toList] .deserialize) [.buf 0]
      ⟨[], [.buf settingsBytes], fun _ => 0⟩) = some (some 5) := by decide +kernel

/-! ### Unbounded -/

/-- `choice nested { optional a = 0; b = 1 }` -/
def nestedDecl : Declaration := ⟨⟨0, 0⟩, [], .choice, ident "nested", [exampleField "a" .optional .unit 0, exampleField "b" .required .unit 1], []⟩

def nestedMain : Schema := ⟨[], [], [nestedDecl]⟩

def nestedSchemas : Schemas := [(⟨[ident "main"]⟩, nestedMain)]

theorem nestedSchemas_accepted : TsAccepted asciiTable nestedSchemas :=
  C72_names asciiTable_ascii _ (by constructor <;> decide +kernel) (by decide +kernel) (clearSchemas_spec (by decide +kernel))

theorem nestedSchemas_declares : nestedSchemas.Declares (["main".toList], "nested".toList) ⟨[ident "main"]⟩ nestedMain nestedDecl :=
  ⟨.head _, .head _, by decide +kernel⟩

theorem nestedSchemas_denotes : nestedSchemas.Denotes (["main".toList], "nested".toList) nestedType :=
  .choice nestedSchemas_declares rfl (.cons .unit (.cons .unit .nil))

abbrev nestedPath : List Str := declPath asciiTable [ident "main"] nestedDecl

theorem nested_header_ts {b : Bytes} {base len : Nat} (h1 : b[base]? = some 1) (h2 : 0 < len) : Ts.deserializeFieldHeader ⟨b, base, len⟩ 0 = some (1, 0, 0) := by
  have e1 : Ts.View.getUint8 ⟨b, base, len⟩ 0 = some 1 := by
    simp only [Ts.View.getUint8]
    rw [if_pos (by omega)]
    exact h1
  have e2 : Ts.View.getBytes ⟨b, base, len⟩ (0 + 1) 0 = some [] := by
    simp only [Ts.View.getBytes]
  have e3 : Ts.deserializeVarint ⟨b, base, len⟩ 0 = some (1, 0) := by
    simp only [Ts.deserializeVarint, e1]
    have : Ts.varintSizeFromFirstByte 1 - 1 = 0 := by decide
    rw [this]
    simp only [e2]
    rfl
  simp only [Ts.deserializeFieldHeader, e3]
  rfl

/-- An exception for an overflow. -/
def Overflows (o : Option (Out × St)) : Prop := ∃ s', o = some (.throw .range, s')

/-- More ones than there is room. -/
theorem nested_overflow {cost : Callee → Nat} (hcost : ∀ f, 1 ≤ cost f) : (room : Nat) → ∀ (F k r base len : Nat) (b : Bytes) (s : St), room ≤ k → room + 20 ≤ F → k ≤ len →
    s.heap[r]? = some (.buf b) → base + len ≤ b.length → (∀ j < k, b[base + j]? = some 1) →
    ∃ s', callLimited (program asciiTable nestedSchemas) cost F room (.decl nestedPath .deserializeUnsafe) [.view r base len] s = some (.throw .range, s') := by
  intro room
  induction room using Nat.strongRecOn with
  | ind room ih =>
    intro F k r base len b s hk hF hkl hr hv hb
    obtain ⟨F, rfl⟩ : ∃ q, F = q + 1 := ⟨F - 1, by omega⟩
    rw [callLimited]
    split
    · exact ⟨s, rfl⟩
    · rename_i hroom
      have hcf := hcost (.decl nestedPath .deserializeUnsafe)
      obtain ⟨ns', hR⟩ := nestedSchemas_accepted.implements _ _ _ _ nestedSchemas_declares
      have hc := hR.clear
      obtain ⟨env, h, sc⟩ := s
      replace hr : h[r]? = some (.buf b) := hr
      have ih := ih (room - cost (.decl nestedPath .deserializeUnsafe)) (by omega) F (k - 1) r (base + 1) (len - 1) b
      have hover := callLimited_throwing (throwing_ser asciiTable nestedSchemas) cost F (room - cost (.decl nestedPath .deserializeUnsafe)) (.runtime .deserializeFieldHeader)
        [.view r base len, .num 0] rfl
      obtain ⟨sc1, hh⟩ := callFn_deserializeFieldHeader hc.top hr hv 0 ((.newOffset, .uninit) :: (.index, .uninit) :: (.payloadSize, .uninit) ::
        loopEnv [(.dataView, .let_ (.view r base len))] r ⟨b, base, len⟩ 0) sc
      rw [nested_header_ts (base := base) (len := len) (hb 0 (by omega)) (by omega)] at hh
      have hh := hover.overflow (hh F (by omega))
      generalize hcall : callLimited (program asciiTable nestedSchemas) cost F (room - cost (.decl nestedPath .deserializeUnsafe)) = call at ih hh ⊢
      have hcode : (program asciiTable nestedSchemas).code nestedPath = some (declCode asciiTable nestedMain ns' nestedDecl).body := hR.code
      generalize hctx : (⟨nestedPath, (program asciiTable nestedSchemas).exports, call, F⟩ : Ctx) = c
      have hrt : ∀ f : RuntimeFn, c.free f.text = true := fun f => by rw [← hctx]; exact hc.runtime 0 f
      have hroot : ∀ f : Builtin, c.free f.root = true := fun f => by rw [← hctx]; exact hc.root 0 f
      have hcall : c.call = call := by rw [← hctx]
      have hfuel : c.fuel = F := by rw [← hctx]
      have hpath : c.path = nestedPath := by rw [← hctx]
      have hbody : Overflows (M.block [.newOffset, .index, .payloadSize] (Stms.exec c (choiceBody asciiTable nestedMain ns' nestedDecl.fields))
          ⟨loopEnv [(.dataView, .let_ (.view r base len))] r ⟨b, base, len⟩ 0, h, sc⟩) := by
        rw [show ∀ m s, Overflows (m s) = Overflows (run m s doneK) from fun m s => by rw [run_done]]
        tsrun [readHeader, hrt, hcall]
        rcases hh with hh | ⟨s', hh⟩
        · erw [run_eq hh _]
          tsrun [headerOut, choiceCases_declared]
          unfold nestedDecl exampleField choiceCases enterField choiceResult
          have hb1 : base + 1 + 0 ≤ b.length := by omega
          tsrun [strictEq, subView, hroot, Ex.buffer, Ex.byteOffset, run_newView_some hr _ _ _ hb1, deserialization]
          rw [if_neg (by simp [hides_eq])]
          have hb2 : base + 1 + (len - 1) ≤ b.length := by omega
          have hsub : (len : Int) - ((1 : Nat) : Int) = ((len - 1 : Nat) : Int) := by omega
          tsrun [hsub, hroot, run_newView_some hr _ _ _ hb2, hcall, hpath]
          obtain ⟨s', ih⟩ := ih ⟨_, h, sc1⟩ (by omega) (by omega) (by omega) hr (by omega) (fun j hj => by
              have := hb (j + 1) (by omega)
              rwa [show base + 1 + j = base + (j + 1) by omega])
          erw [run_eq ih _]
          exact ⟨_, rfl⟩
        · erw [run_eq hh _]
          exact ⟨_, rfl⟩
      obtain ⟨s', hbody⟩ := hbody
      refine ⟨⟨env, s'.heap, s'.scratch⟩, ?_⟩
      simp only [Prog.enter, Prog.body, hcode, Option.map_some]
      have hrounds : rounds (Ex.eval c (.lit (.bool true))) (M.block [.newOffset, .index, .payloadSize] (Stms.exec c (choiceBody asciiTable nestedMain ns' nestedDecl.fields))) F
          ⟨loopEnv [(.dataView, .let_ (.view r base len))] r ⟨b, base, len⟩ 0, h, sc⟩ = some (.throw .range, s') := by
        obtain ⟨F', rfl⟩ : ∃ q, F = q + 1 := ⟨F - 1, by omega⟩
        exact rounds_throw (s1 := ⟨loopEnv [(.dataView, .let_ (.view r base len))] r ⟨b, base, len⟩ 0, h, sc⟩) ((run_done _ _).symm.trans (by tsrun)) hbody
      refine (run_done _ _).symm.trans ?_
      have hbd : (declCode asciiTable nestedMain ns' nestedDecl).body .deserializeUnsafe = choiceDeserialize asciiTable nestedMain ns' nestedDecl.fields := rfl
      have hdc : (choiceDeserialize asciiTable nestedMain ns' nestedDecl.fields).declared = [.dataViewAlias, .offset] := rfl
      rw [hctx, hbd, hdc, run_frame, if_pos ⟨rfl, by decide⟩]
      unfold choiceDeserialize
      tsrun [Fn.params, TsGen.choiceLoop, run_while, hfuel]
      erw [run_eq hrounds _]
      rfl

theorem nested_decodes : (n fuel : Nat) → ∀ (b : Bytes) (base : Nat), n < fuel → base + (n + 1) = b.length → (∀ j < n, b[base + j]? = some 1) → b[base + n]? = some 9 →
    ∃ v, Ts.choiceLoop (Ts.fieldsSelect (.cons 0 .optional .unit (.cons 1 .required .unit .nil))) fuel ⟨b, base, n + 1⟩ 0 = .ok v
  | n, 0, _, _, h, _, _, _ => absurd h (by omega)
  | 0, fuel + 1, b, base, _, hl, _, h9 => by
    have e1 : Ts.View.getUint8 ⟨b, base, 0 + 1⟩ 0 = some 9 := by
      simp only [Ts.View.getUint8]
      rw [if_pos (by omega)]
      exact h9
    have e3 : Ts.deserializeVarint ⟨b, base, 0 + 1⟩ 0 = some (1, 4) := by
      simp only [Ts.deserializeVarint, e1]
      have : Ts.varintSizeFromFirstByte 9 - 1 = 0 := by decide
      rw [this]
      rfl
    have e4 : Ts.deserializeFieldHeader ⟨b, base, 0 + 1⟩ 0 = some (1, 1, 0) := by
      simp only [Ts.deserializeFieldHeader, e3]
      rfl
    rw [Ts.choiceLoop, e4]
    have hv : Ts.View.new b (base + 1) 0 = some ⟨b, base + 1, 0⟩ := by unfold Ts.View.new; rw [if_pos (by omega)]
    simp only [hv]
    exact ⟨_, rfl⟩
  | n + 1, fuel + 1, b, base, hf, hl, h1, h9 => by
    obtain ⟨v, ih⟩ := nested_decodes n fuel b (base + 1) (by omega) (by omega) (fun j hj => by
      have := h1 (j + 1) (by omega)
      rwa [show base + 1 + j = base + (j + 1) by omega]) (by rwa [show base + 1 + n = base + (n + 1) by omega])
    rw [Ts.choiceLoop, nested_header_ts (base := base) (h1 0 (by omega)) (by omega)]
    have hv : Ts.View.new b (base + 1) 0 = some ⟨b, base + 1, 0⟩ := by unfold Ts.View.new; rw [if_pos (by omega)]
    simp only [hv]
    have hs : Ts.fieldsSelect (.cons 0 .optional .unit (.cons 1 .required .unit .nil)) 0 0 (some ⟨b, base + 1, 0⟩) =
        .ok (some (0, .inl (.inl ⟨(), rfl⟩))) := rfl
    rw [hs]
    have hv : Ts.View.new b (base + (0 + 1)) (n + 1 + 1 - (0 + 1)) = some ⟨b, base + 1, n + 1⟩ := by unfold Ts.View.new; rw [if_pos (by omega)]; rfl
    simp only [hv, ih]
    rw [if_pos (by omega)]
    exact ⟨_, rfl⟩

/-- **C78 (otherwise not bounded).** `choice nested { optional a = 0; b = 1 }`: whatever the size of the stack is (but enough for the call of `deserialize`
itself), a message with as many bytes makes `deserialize` return a `RangeError`, although the message is a valid one, which it accepts on a larger stack. -/
theorem C78_unbounded_witness {cost : Callee → Nat} (hcost : ∀ f, 1 ≤ cost f) (room : Nat) (hroom : cost (.decl ["Main".toList, "Nested".toList] .deserialize) ≤ room)
    (n : Nat) (hn : room ≤ n) (scratch : Nat → UInt8) :
    (∃ y h' sc', Calls (program asciiTable nestedSchemas) ["Main".toList, "Nested".toList] .deserialize [.buf 0] [.buf (nestedBytes n)] scratch (.val (.obj y)) h' sc') ∧
    ∃ h' sc', CallsLimited (program asciiTable nestedSchemas) cost room ["Main".toList, "Nested".toList] .deserialize [.buf 0] [.buf (nestedBytes n)] scratch
      (.val (.err .range)) h' sc' := by
  have hpath : nestedPath = ["Main".toList, "Nested".toList] := by decide +kernel
  have hlen : (nestedBytes n).length = n + 1 := by simp [nestedBytes]
  have h1 : ∀ j < n, (nestedBytes n)[0 + j]? = some 1 := by
    intro j hj
    rw [Nat.zero_add, nestedBytes, List.getElem?_append_left (by simpa using hj), List.getElem?_replicate, if_pos hj]
  have h9 : (nestedBytes n)[0 + n]? = some 9 := by
    rw [Nat.zero_add, nestedBytes, List.getElem?_append_right (by simp)]
    simp
  rw [← hpath] at hroom ⊢
  constructor
  · obtain ⟨m, hm⟩ := nested_decodes n (n + 2) (nestedBytes n) 0 (by omega) (by omega) h1 h9
    have hd : Ts.deserializeView nestedType (Ts.part [] (nestedBytes n) []) = .ok m := by
      have : Ts.part [] (nestedBytes n) [] = ⟨nestedBytes n, 0, n + 1⟩ := by simp [Ts.part, hlen]
      rw [this]
      have hc : Ts.cDeser false nestedType (n + 1) ⟨nestedBytes n, 0, n + 1⟩ = .ok (n + 1, m) := by
        simp only [nestedType, Ts.cDeser, hm]
      simp only [Ts.deserializeView, hc]
    obtain ⟨y, h', sc', -, hy, hc⟩ := C73_accepts nestedSchemas_accepted nestedSchemas_denotes nestedSchemas_declares (.buffer (h := [.buf (nestedBytes n)]) (r := 0) rfl) scratch hd
    have : ∃ L, y = .obj L := by
      generalize nestedType.tree m = t at hy
      cases hy <;> exact ⟨_, rfl⟩
    obtain ⟨L, rfl⟩ := this
    exact ⟨L, h', sc', hc⟩
  · have hcf := hcost (.decl nestedPath .deserialize)
    obtain ⟨s', hov⟩ := nested_overflow hcost (room - cost (.decl nestedPath .deserialize)) (room + 20) n 0 0 (n + 1) (nestedBytes n)
      ⟨[(.bytes, .let_ (.buf 0))], [.buf (nestedBytes n)], scratch⟩ (by omega) (by omega) (by omega) rfl (by omega) h1
    obtain ⟨ns', hR⟩ := nestedSchemas_accepted.implements _ _ _ _ nestedSchemas_declares
    have hc := hR.clear
    have hcode : (program asciiTable nestedSchemas).code nestedPath = some (declCode asciiTable nestedMain ns' nestedDecl).body := hR.code
    have hrun : callLimited (program asciiTable nestedSchemas) cost (room + 20 + 1) room (.decl nestedPath .deserialize) [.buf 0] ⟨[], [.buf (nestedBytes n)], scratch⟩ =
        some (.val (.err .range), ⟨[], s'.heap, s'.scratch⟩) := by
      have henv := callLimited_env hov
      obtain ⟨env', h', sc'⟩ := s'
      cases henv
      rw [callLimited, if_neg (by omega)]
      simp only [Prog.enter, Prog.body, hcode, Option.map_some]
      generalize hctx : (⟨nestedPath, (program asciiTable nestedSchemas).exports, callLimited (program asciiTable nestedSchemas) cost (room + 20) (room - cost (.decl nestedPath .deserialize)), room + 20⟩ : Ctx) = c
      have hroot : ∀ f : Builtin, c.free f.root = true := fun f => by rw [← hctx]; exact hc.root 0 f
      have hcall : c.call = callLimited (program asciiTable nestedSchemas) cost (room + 20) (room - cost (.decl nestedPath .deserialize)) := by rw [← hctx]
      have hpath : c.path = nestedPath := by rw [← hctx]
      refine (run_done _ _).symm.trans ?_
      have hbd : (declCode asciiTable nestedMain ns' nestedDecl).body .deserialize = deserializeFunction := rfl
      rw [hbd, run_frame, if_pos ⟨rfl, by decide⟩]
      unfold deserializeFunction
      tsrun [Fn.params, hroot, hcall, hpath, Val.isA]
      rw [if_neg (by simp [hides_eq])]
      have hg : ([Obj.buf (nestedBytes n)] : List Obj)[0]? = some (.buf (nestedBytes n)) := rfl
      tsrun [hroot, hcall, hpath, run_newDataView hg]
      rw [hlen]
      refine (run_eq hov _).trans ?_
      tsrun
    exact ⟨_, _, .of_run hrun⟩

/-- C78 for `settings`, with frames of 100 bytes: 500 bytes are enough for every input. -/
example (b : Bytes) : ∃ r h' scratch', Calls (program asciiTable settingsSchemas) (declPath asciiTable [ident "main"] settingsSchemas[0].2.declarations[0]) .deserialize
        [.buf 0] [.buf b] (fun _ => 0) (.val r) h' scratch' ∧
      CallsLimited (program asciiTable settingsSchemas) (fun _ => 100) 500 (declPath asciiTable [ident "main"] settingsSchemas[0].2.declarations[0]) .deserialize
        [.buf 0] [.buf b] (fun _ => 0) (.val r) h' scratch' := by
  have hd : settingsSchemas.Declares (["main".toList], "settings".toList) ⟨[ident "main"]⟩ settingsSchemas[0].2 settingsSchemas[0].2.declarations[0] :=
    ⟨.head _, .head _, by decide +kernel⟩
  have hc : settingsSchemas.Denotes (["main".toList], "settings".toList) (.struct (.cons 0 .optional (.scalar .u64) .nil)) :=
    .struct hd rfl (.cons .u64 .nil)
  have hi : JsInput [.buf b] (.buf 0) [] b [] := .buffer (r := 0) rfl
  exact C78_bounded (cost := fun _ => 100) (C := 100) settingsSchemas_accepted hc hd ⟨trivial, trivial⟩ (fun _ => Nat.le_refl _) (by decide) hi _

end Typical

import Verif.TsGen.AtlasChoice
import Verif.TsEncLemmas

/-!
# Helper: the generated statements which serialize payloads
-/

namespace Typical.TsGen

open Gen (NCTy NTy NFields DeclName FieldName Ev)

/-- The variables of the code which serializes: the buffer is at `b` in the heap. -/
structure Writer (env : Env) (h : List Obj) (b len : Nat) (w : Ts.W) : Prop where
  buf : h[b]? = some (.buf w.buf)
  length : len = w.buf.length
  view : lookup .dataView env = some (.view b 0 len)
  off : lookup .offset env = some (natV w.off)
  assign : assignable .offset env = true

theorem put_eq {bs : Bytes} {w w' : Ts.W} (h : Ts.put bs w = some w') :
    w.off + bs.length ≤ w.buf.length ∧ w' = ⟨splice w.buf w.off bs, w.off + bs.length⟩ := by
  unfold Ts.put at h
  split at h
  · next h1 => cases h; exact ⟨h1, rfl⟩
  · cases h

/-- After writing. -/
theorem Writer.next {env : Env} {h : List Obj} {b len : Nat} {w w' : Ts.W} (hW : Writer env h b len w) (hl : w'.buf.length = w.buf.length) :
    Writer (update .offset (natV w'.off) env) (h.set b (.buf w'.buf)) b len w' where
  buf := get_set (List.getElem?_eq_some_iff.mp hW.buf).1 _
  length := hW.length.trans hl.symm
  view := (lookup_setCell_ne (show TVar.dataView ≠ .offset from nofun) _ _).trans hW.view
  off := lookup_update _ _ hW.assign
  assign := assignable_update _ _ hW.assign

/-- What is serialized for a payload. -/
def serOf (isField : Bool) : (t : NTy) → t.erase.Msg .out → Ts.W → Option Ts.W
  | .unit, _, w => some w
  | .scalar s, x, w => if isField then Ts.serScalarField s x (Ts.scalarFieldSize s x) w else Ts.serScalarElem s x w
  | .comp c, m, w => Ts.cSer isField c.erase m (Ts.cAtlas isField c.erase m) w

theorem serOf_true (t : NTy) (m : t.erase.Msg .out) (w : Ts.W) : serOf true t m w = Ts.tSer t.erase m (Ts.tAtlas t.erase m) w := by
  cases t <;> rfl

/-- The code writes. -/
def Emits (P : Prog) (path : List Str) (code : Stms) (env : Env) (h : List Obj) (sc : Nat → UInt8) (b : Nat) (w w' : Ts.W) : Prop :=
  w'.buf.length = w.buf.length ∧
  Ev fun n => code.exec (ctx P path n) ⟨env, h, sc⟩ = some (.val .undef, ⟨update .offset (natV w'.off) env, h.set b (.buf w'.buf), sc⟩)

/-- The statements which serialize a payload are correct. -/
def SerOk (T : CharTable) (S : Schemas) (P : Prog) (ns : Namespace) (s : Schema) (tv : TypeVariant) (t : NTy) : Prop :=
  ∀ (ns' : Namespace) (path : List Str) (isField : Bool) (m : t.erase.Msg .out) (v va : Val) (env : Env) (h : List Obj) (sc : Nat → UInt8) (H : Part)
    (b len : Nat) (w w' : Ts.W),
    P.Clear path → Resolves T S P path s ns ns' tv → tRep .out H t m v → tAtl H t (atlasOf isField t m) va → H.In h → H b = none →
    lookup .payload env = some v → lookup .payloadAtlas env = some va → Writer env h b len w → serOf isField t m w = some w' →
    Emits P path (serialization T s ns' isField tv) env h sc b w w'

/-- The `serializeWithAtlasUnsafe` function is correct. -/
def SerFnOk (P : Prog) (c : NCTy) : Prop :=
  ∀ (isField : Bool) (m : c.erase.Msg .out) (v va : Val) (env : Env) (h : List Obj) (sc : Nat → UInt8) (H : Part) (b len : Nat) (w w' : Ts.W),
    cRep .out H c m v → cAtl H c (Ts.cAtlas isField c.erase m) va → H.In h → H b = none → h[b]? = some (.buf w.buf) → len = w.buf.length →
    Ts.cSer isField c.erase m (Ts.cAtlas isField c.erase m) w = some w' →
    w'.buf.length = w.buf.length ∧
    Ev fun n => callFn P n (.decl c.path .serializeWithAtlasUnsafe) [.view b 0 len, natV w.off, v, va] ⟨env, h, sc⟩ =
      some (.val (natV w'.off), ⟨env, h.set b (.buf w'.buf), sc⟩)

theorem set_same {h : List Obj} {b : Nat} {o : Obj} (hb : h[b]? = some o) : h.set b o = h := by
  obtain ⟨hl, hb⟩ := List.getElem?_eq_some_iff.mp hb
  subst hb
  exact List.set_getElem_self hl

section
variable {P : Prog} {path : List Str} (hc : P.Clear path) {n : Nat} {env : Env} {h : List Obj} {sc : Nat → UInt8} {b len : Nat} {w w' : Ts.W}
include hc

theorem run_callVarint {x : Nat} (hn : 16 ≤ n) (hb : h[b]? = some (.buf w.buf)) (hl : len = w.buf.length) (hp : Ts.put (Ts.serializeVarint x) w = some w')
    (κ : Out → St → Option (Out × St)) :
    run (callFn P n (.runtime .serializeVarint) [.view b 0 len, .num w.off, .big x]) ⟨env, h, sc⟩ κ =
      κ (.val (natV w'.off)) ⟨env, h.set b (.buf w'.buf), sc⟩ := by
  obtain ⟨h1, rfl⟩ := put_eq hp
  exact run_eq (callFn_serializeVarint hc.top hn x hb hl (by omega)) κ

theorem run_callHeader {i k : Nat} {ie : Bool} (hn : 17 ≤ n) (hb : h[b]? = some (.buf w.buf)) (hl : len = w.buf.length)
    (hp : Ts.put (Ts.serializeFieldHeader i k ie) w = some w') (κ : Out → St → Option (Out × St)) :
    run (callFn P n (.runtime .serializeFieldHeader) [.view b 0 len, .num w.off, .big i, .num k, .bool ie]) ⟨env, h, sc⟩ κ =
      κ (.val (natV w'.off)) ⟨env, h.set b (.buf w'.buf), sc⟩ := by
  obtain ⟨h1, rfl⟩ := put_eq hp
  exact run_eq (callFn_serializeFieldHeader hc.top hn i k ie hb hl (by omega)) κ

theorem exec_u64Serialization {x : Nat} (hn : 16 ≤ n) (isField : Bool) (hx : lookup .varint env = some (.big x)) (hW : Writer env h b len w)
    (hs : Ts.serU64 isField x w = some w') :
    w'.buf.length = w.buf.length ∧
    (u64Serialization isField).exec (ctx P path n) ⟨env, h, sc⟩ = some (.val .undef, ⟨update .offset (natV w'.off) env, h.set b (.buf w'.buf), sc⟩) := by
  unfold Ts.serU64 at hs
  cases isField with
  | false =>
    have hs : Ts.put (Ts.serializeVarint x) w = some w' := hs
    refine ⟨(Ts.put_inv hs).2, (run_done _ _).symm.trans ?_⟩
    unfold u64Serialization
    tsrun [hx, hW.view, hW.off, hW.assign, hc.runtime, run_callVarint hc hn hW.buf hW.length hs]
  | true =>
    rw [if_pos rfl] at hs
    by_cases h1 : x > 567382630219903
    · rw [if_pos h1] at hs
      refine ⟨(Ts.put_inv hs).2, (run_done _ _).symm.trans ?_⟩
      obtain ⟨h2, rfl⟩ := put_eq hs
      have h3 : w.off + 8 ≤ len := by rw [hW.length]; exact h2
      unfold u64Serialization
      tsrun [hx, hW.view, hW.off, hW.assign, h1, run_setBigUint64 hW.buf _ _ _ _ h3]
      rfl
    · rw [if_neg h1] at hs
      by_cases h0 : x ≠ 0
      · rw [if_pos h0] at hs
        refine ⟨(Ts.put_inv hs).2, (run_done _ _).symm.trans ?_⟩
        unfold u64Serialization
        tsrun [hx, hW.view, hW.off, hW.assign, hc.runtime, h1, h0, run_callVarint hc hn hW.buf hW.length hs]
      · rw [if_neg h0] at hs
        cases hs
        have h0 : x = 0 := by omega
        subst h0
        refine ⟨rfl, (run_done _ _).symm.trans ?_⟩
        unfold u64Serialization
        tsrun [hx]
        rw [update_self env hW.assign hW.off, set_same hW.buf]
end


/-- In a larger scope. -/
theorem Writer.enter {env : Env} {h : List Obj} {b len : Nat} {w : Ts.W} (hW : Writer env h b len w) {x : TVar} (h1 : TVar.dataView ≠ x) (h2 : TVar.offset ≠ x)
    (c : Cell) : Writer ((x, c) :: env) h b len w where
  buf := hW.buf
  length := hW.length
  view := by rw [lookup, if_neg h1]; exact hW.view
  off := by rw [lookup, if_neg h2]; exact hW.off
  assign := by rw [assignable, if_neg h2]; exact hW.assign

theorem u64Serialization_declared (isField : Bool) : (u64Serialization isField).declared = [] := by cases isField <;> rfl

theorem serialization_declared (T : CharTable) (s : Schema) (ns : Namespace) (isField : Bool) (tv : TypeVariant) :
    (serialization T s ns isField tv).declared = [] := by
  cases tv <;> unfold serialization <;> repeat (first | rfl | split)

section
variable {P : Prog} {path : List Str} (hc : P.Clear path) {n : Nat} {env : Env} {h : List Obj} {sc : Nat → UInt8} {b len : Nat} {w w' : Ts.W}
include hc

theorem exec_varintBlock {e : Ex} {x : Nat} (hn : 16 ≤ n) (isField : Bool)
    (he : ∀ κ, run (e.eval (ctx P path n)) ⟨(.varint, .uninit) :: env, h, sc⟩ κ = κ (.val (.big x)) ⟨(.varint, .uninit) :: env, h, sc⟩)
    (hW : Writer env h b len w) (hs : Ts.serU64 isField x w = some w') :
    w'.buf.length = w.buf.length ∧
    (varintBlock isField e).exec (ctx P path n) ⟨env, h, sc⟩ = some (.val .undef, ⟨update .offset (natV w'.off) env, h.set b (.buf w'.buf), sc⟩) := by
  obtain ⟨h1, h2⟩ := exec_u64Serialization hc hn isField (env := (.varint, .const (.big x)) :: env) (sc := sc) (by tsrun)
    (hW.enter (x := .varint) nofun nofun _) hs
  refine ⟨h1, (run_done _ _).symm.trans ?_⟩
  unfold varintBlock
  tsrun [u64Serialization_declared]
  rw [he]
  tsrun
  refine (run_eq h2 _).trans ?_
  tsrun

theorem exec_setFloat {x : UInt64} (hx : lookup .payload env = some (encF64 x)) (hW : Writer env h b len w) (hs : Ts.setFloat64 x w = some w') :
    w'.buf.length = w.buf.length ∧
    setFloat.exec (ctx P path n) ⟨env, h, sc⟩ = some (.val .undef, ⟨update .offset (natV w'.off) env, h.set b (.buf w'.buf), sc⟩) := by
  unfold Ts.setFloat64 at hs
  refine ⟨(Ts.put_inv hs).2, (run_done _ _).symm.trans ?_⟩
  obtain ⟨h2, rfl⟩ := put_eq hs
  have h3 : w.off + (leBytes 8 x.toNat).length ≤ len := by rw [hW.length]; exact h2
  have hw := run_writeView hW.buf h3
  have key : ∀ κ, run (Method.run .setFloat64 (.view b 0 len) [natV w.off, encF64 x, .bool true]) ⟨env, h, sc⟩ κ =
      κ (.val .undef) ⟨env, h.set b (.buf (splice w.buf w.off (leBytes 8 x.toNat))), sc⟩ := by
    intro κ
    unfold encF64
    split
    · next h0 => subst h0; exact hw _ _ _
    · exact hw _ _ _
  unfold setFloat
  tsrun [hx, hW.view, hW.off, hW.assign, key]
  rfl

end

section
variable {T : CharTable} {S : Schemas} {P : Prog}

theorem serOk_unit (ns : Namespace) (s : Schema) : SerOk T S P ns s .unit .unit := by
  intro ns' path isField m v va env h sc H b len w w' hc hr hm ha hH hb e1 e2 hW hs
  cases hs
  refine ⟨rfl, .of fun n => ?_⟩
  rw [update_self env hW.assign hW.off, set_same hW.buf]
  rfl

theorem exec_serScalar {ns ns' : Namespace} {s : Schema} {tv : TypeVariant} {c : Scalar} (ht : NamedType T S ns s tv (.scalar c)) {path : List Str}
    (hc : P.Clear path) (isField : Bool) (m : c.Val) {env : Env} {h : List Obj} {sc : Nat → UInt8} {b len : Nat} {w w' : Ts.W}
    (e1 : lookup .payload env = some (encScalar c m))
    (e2 : isField = true → lookup .payloadAtlas env = some (natV (Ts.scalarFieldSize c m))) (hW : Writer env h b len w)
    (hs : (if isField then Ts.serScalarField c m (Ts.scalarFieldSize c m) w else Ts.serScalarElem c m w) = some w') :
    Emits P path (serialization T s ns' isField tv) env h sc b w w' := by
  have hev : ∀ {p : Nat → Prop} {q : Prop}, (∀ n, 16 ≤ n → q ∧ p n) → q ∧ Ev p := fun hp => ⟨(hp 16 (Nat.le_refl _)).1, 16, fun n hn => (hp n hn).2⟩
  refine hev fun n hn => ?_
  cases ht with
  | bool =>
    unfold serialization
    have hs : Ts.serU64 isField (cond m 1 0) w = some w' := by cases isField <;> exact hs
    refine exec_varintBlock hc hn isField (fun κ => ?_) hW hs
    change Bool at m
    change lookup _ _ = some (.bool m) at e1
    cases m <;> tsrun [e1] <;> rfl
  | f64 =>
    unfold serialization
    cases isField with
    | false => exact exec_setFloat hc e1 hW hs
    | true =>
      change UInt64 at m
      have e2 : lookup .payloadAtlas env = some (natV (Ts.f64FieldSize m)) := e2 rfl
      have hs : (if Ts.f64FieldSize m ≠ 0 then Ts.setFloat64 m w else some w) = some w' := hs
      by_cases h0 : Ts.f64FieldSize m ≠ 0
      · rw [if_pos h0] at hs
        obtain ⟨q1, q2⟩ := exec_setFloat hc (n := n) (sc := sc) e1 hW hs
        refine ⟨q1, (run_done _ _).symm.trans ?_⟩
        tsrun [e2, h0, show setFloat.declared = [] from rfl]
        refine (run_eq q2 _).trans ?_
        tsrun
      · rw [if_neg h0] at hs
        cases hs
        refine ⟨rfl, (run_done _ _).symm.trans ?_⟩
        have h0 : Ts.f64FieldSize m = 0 := by omega
        tsrun [e2, h0]
        rw [update_self env hW.assign hW.off, set_same hW.buf]
  | s64 =>
    unfold serialization
    change Int64 at m
    have hs : Ts.serU64 isField (Ts.zigzagEncode (Int64.toInt m)).toNat w = some w' := by cases isField <;> exact hs
    refine exec_varintBlock hc hn isField (fun κ => ?_) hW hs
    change lookup _ _ = some (Val.big (Int64.toInt m)) at e1
    tsrun [e1, hc.runtime, run_eq (callFn_zigzagEncode P hn _ _)]
    rw [← zigzag_nat]
  | u64 =>
    unfold serialization
    change UInt64 at m
    have hs : Ts.serU64 isField (UInt64.toNat m) w = some w' := by cases isField <;> exact hs
    refine exec_varintBlock hc hn isField (fun κ => ?_) hW hs
    change lookup _ _ = some (Val.big (UInt64.toNat m)) at e1
    tsrun [e1]

theorem serOk_scalar (ns : Namespace) (s : Schema) (tv : TypeVariant) (c : Scalar) (ht : NamedType T S ns s tv (.scalar c)) :
    SerOk T S P ns s tv (.scalar c) := by
  intro ns' path isField m v va env h sc H b len w w' hc hr hm ha hH hb e1 e2 hW hs
  cases hm
  refine exec_serScalar ht hc isField m e1 (fun e => ?_) hW hs
  subst e
  cases ha
  exact e2

end

end Typical.TsGen

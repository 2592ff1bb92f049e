import Verif.TsGen.SerDecl
import Verif.TsTotalLemmas
import Verif.TsLemmas

/-!
# Helper: the generated statements which deserialize payloads
-/

namespace Typical.TsGen

open Gen (NCTy NTy NFields DeclName FieldName Ev)

/-- A view is in a variable. -/
structure Reader (x : TVar) (env : Env) (h : List Obj) (r : Nat) (w : Ts.View) : Prop where
  buf : h[r]? = some (.buf w.buf)
  bound : w.base + w.len ≤ w.buf.length
  view : lookup x env = some (.view r w.base w.len)

theorem Reader.enter {x y : TVar} {env : Env} {h : List Obj} {r : Nat} {w : Ts.View} (hR : Reader x env h r w) (hxy : x ≠ y) (c : Cell) :
    Reader x ((y, c) :: env) h r w where
  buf := hR.buf
  bound := hR.bound
  view := by rw [lookup, if_neg hxy]; exact hR.view

theorem Reader.set {x y : TVar} {env : Env} {h : List Obj} {r : Nat} {w : Ts.View} (hR : Reader x env h r w) (hxy : x ≠ y) (c : Cell) :
    Reader x (setCell y c env) h r w where
  buf := hR.buf
  bound := hR.bound
  view := by rw [lookup_setCell_ne hxy]; exact hR.view

theorem Reader.heap {x : TVar} {env : Env} {h h' : List Obj} {r : Nat} {w : Ts.View} (hR : Reader x env h r w) (hp : h <+: h') :
    Reader x env h' r w where
  buf := prefix_get hp hR.buf
  bound := hR.bound
  view := hR.view

/-- How statements end, with enough fuel. -/
def Ends (P : Prog) (path : List Str) (code : Stms) (env : Env) (h : List Obj) (sc : Nat → UInt8) (o : Out) (env' : Env) (h' : List Obj) : Prop :=
  ∃ sc', Ev fun n => code.exec (ctx P path n) ⟨env, h, sc⟩ = some (o, ⟨env', h', sc'⟩)

theorem lookup_setCell {x : TVar} (c : Cell) {env : Env} (h : uninit x env = true ∨ assignable x env = true) : lookup x (setCell x c env) = c.val := by
  induction env with
  | nil => simp [uninit, assignable] at h
  | cons a l ih =>
    obtain ⟨y, d⟩ := a
    rw [setCell]
    by_cases e : x = y
    · rw [if_pos e, lookup, if_pos e]
    · rw [if_neg e, lookup, if_neg e]
      refine ih ?_
      rwa [uninit, if_neg e, assignable, if_neg e] at h

theorem setCell_uninit {x : TVar} {env : Env} (h : uninit x env = true) : setCell x .uninit env = env := by
  induction env with
  | nil => rfl
  | cons a l ih =>
    obtain ⟨y, d⟩ := a
    rw [setCell]
    by_cases e : x = y
    · rw [uninit, if_pos e] at h
      rw [if_pos e]
      cases d <;> first | rfl | cases h
    · rw [uninit, if_neg e] at h
      rw [if_neg e, ih h]

theorem assignable_setCell {x : TVar} (w : Val) {env : Env} (h : uninit x env = true ∨ assignable x env = true) :
    assignable x (setCell x (.let_ w) env) = true := by
  induction env with
  | nil => simp [uninit, assignable] at h
  | cons a l ih =>
    obtain ⟨y, d⟩ := a
    rw [setCell]
    by_cases e : x = y
    · rw [if_pos e, assignable, if_pos e]; rfl
    · rw [if_neg e, assignable, if_neg e]
      refine ih ?_
      rwa [uninit, if_neg e, assignable, if_neg e] at h

@[ts_run] theorem readVarint_declared (x y : TVar) : (readVarint x y).declared = [] := rfl

/-- What statements do which read a number: nothing changes besides the variables `payload` and `offset`. -/
def Gives (P : Prog) (path : List Str) (code : Stms) (env : Env) (h : List Obj) (sc : Nat → UInt8) : Option (Nat × Val) → Prop
  | none => ∃ c sc', ∀ n, 17 ≤ n → code.exec (ctx P path n) ⟨env, h, sc⟩ = some (.throw .range, ⟨setCell .payload c env, h, sc'⟩)
  | some (o, z) => ∃ sc', ∀ n, 17 ≤ n → code.exec (ctx P path n) ⟨env, h, sc⟩ =
      some (.val .undef, ⟨setCell .payload (.let_ z) (setCell .offset (.let_ (natV o)) env), h, sc'⟩)

/-- An integer. -/
abbrev bigs (p : Option (Nat × Nat)) : Option (Nat × Val) := p.map fun q => (q.1, .big q.2)

theorem readU64_true (k : Nat) (w : Ts.View) (off : Nat) : Ts.readU64 true k w off =
    if k = 0 then some (off, 0) else if k = 8 then (w.getBytes off 8).map fun bs => (off + 8, Ts.leValue bs) else Ts.deserializeVarint w off := by
  unfold Ts.readU64
  rw [if_pos rfl]
  split
  · rfl
  · simp only [if_true]
    rw [if_neg (by omega)]
    cases w.getBytes off 8 <;> rfl
  · next h0 h8 => rw [if_neg h0, if_neg h8]

section
variable {P : Prog} {path : List Str} (hc : P.Clear path) {env : Env} {h : List Obj} {sc : Nat → UInt8} {r : Nat} {w : Ts.View} {off : Nat}
include hc

theorem exec_readVarint {x y : TVar} (hx : x ≠ .offset) (hR : Reader y env h r w) (ho : lookup .offset env = some (natV off))
    (ha : assignable .offset env = true) (hax : assignable x env = true) :
    match Ts.deserializeVarint w off with
    | none => ∃ sc', ∀ n, 17 ≤ n → (readVarint x y).exec (ctx P path n) ⟨env, h, sc⟩ = some (.throw .range, ⟨env, h, sc'⟩)
    | some (o, z) => ∃ sc', ∀ n, 17 ≤ n → (readVarint x y).exec (ctx P path n) ⟨env, h, sc⟩ =
        some (.val .undef, ⟨setCell x (.let_ (.big z)) (setCell .offset (.let_ (natV o)) env), h, sc'⟩) := by
  obtain ⟨sc', hv⟩ := callFn_deserializeVarint hc.top hR.buf hR.bound off env sc
  cases hd : Ts.deserializeVarint w off with
  | none =>
    rw [hd] at hv
    refine ⟨sc', fun n hn => (run_done _ _).symm.trans ?_⟩
    unfold readVarint
    tsrun [hc.runtime, hR.view, ho]
    refine (run_eq (hv n hn) _).trans ?_
    tsrun [varintOut]
  | some p =>
    obtain ⟨o, z⟩ := p
    rw [hd] at hv
    refine ⟨sc', fun n hn => (run_done _ _).symm.trans ?_⟩
    unfold readVarint
    tsrun [hc.runtime, hR.view, ho]
    refine (run_eq (hv n hn) _).trans ?_
    tsrun [varintOut, ha, assignable_setCell_ne hx, hax]


omit hc in
theorem u64Deserialization_declared (isField : Bool) : (u64Deserialization isField).declared = [.payload] := by cases isField <;> rfl

/-- What the statements for integers do. -/
theorem exec_u64Deserialization (isField : Bool) {k : Nat} (hR : Reader .dataView env h r w) (ho : lookup .offset env = some (natV off))
    (ha : assignable .offset env = true) (hu : uninit .payload env = true) (hk : isField = true → lookup .payloadSize env = some (natV k)) :
    Gives P path (u64Deserialization isField) env h sc (bigs (Ts.readU64 isField k w off)) := by
  have ho' : lookup .offset (setCell .payload (.let_ .undef) env) = some (natV off) := (lookup_setCell_ne (by nofun) _ _).trans ho
  have ha' : assignable .offset (setCell .payload (.let_ .undef) env) = true := (assignable_setCell_ne (by nofun) _ _).trans ha
  have hp' : assignable .payload (setCell .payload (.let_ .undef) env) = true := assignable_setCell .undef (.inl hu)
  have hR' := hR.set (y := .payload) nofun (.let_ .undef)
  have h1 := exec_readVarint hc (sc := sc) (x := .payload) nofun hR' ho' ha' hp'
  have hcomm : ∀ z : Val, ∀ o : Nat, setCell .payload (.let_ z) (setCell .offset (.let_ (natV o)) (setCell .payload (.let_ .undef) env)) =
      setCell .payload (.let_ z) (setCell .offset (.let_ (natV o)) env) := by
    intro z o
    rw [setCell_comm (x := .offset) (y := .payload) nofun, setCell_setCell]
  cases isField with
  | false =>
    rw [show Ts.readU64 false k w off = Ts.deserializeVarint w off from rfl]
    cases hd : Ts.deserializeVarint w off with
    | none =>
      rw [hd] at h1
      obtain ⟨sc', h1⟩ := h1
      refine ⟨.let_ .undef, sc', fun n hn => (run_done _ _).symm.trans ?_⟩
      unfold u64Deserialization
      tsrun [hu]
      refine (run_eq (h1 n hn) _).trans ?_
      tsrun
    | some p =>
      obtain ⟨o, z⟩ := p
      rw [hd] at h1
      obtain ⟨sc', h1⟩ := h1
      refine ⟨sc', fun n hn => (run_done _ _).symm.trans ?_⟩
      unfold u64Deserialization
      tsrun [hu]
      refine (run_eq (h1 n hn) _).trans ?_
      tsrun
      rw [hcomm]
  | true =>
    rw [readU64_true]
    have hk' : lookup .payloadSize (setCell .payload (.let_ .undef) env) = some (natV k) := (lookup_setCell_ne (by nofun) _ _).trans (hk rfl)
    split
    · next h0 =>
      subst h0
      refine ⟨sc, fun n hn => (run_done _ _).symm.trans ?_⟩
      unfold u64Deserialization
      tsrun [hu, hk', hp', setCell_setCell]
      have hs := update_self _ ha' ho'
      unfold update at hs
      rw [← hcomm, hs, setCell_setCell]
    split
    · next h0 h8 =>
      subst h8
      cases hd : w.getBytes off 8 with
      | none =>
        refine ⟨.let_ .undef, sc, fun n hn => (run_done _ _).symm.trans ?_⟩
        unfold u64Deserialization
        tsrun [hu, hk', hp', setCell_setCell, hR'.view, ho', ha', run_getBigUint64_none hR.buf hR.bound _ _ _ hd]
      | some bs =>
        refine ⟨sc, fun n hn => (run_done _ _).symm.trans ?_⟩
        unfold u64Deserialization
        tsrun [hu, hk', hp', setCell_setCell, hR'.view, ho', ha', run_getBigUint64_some hR.buf hR.bound _ _ _ hd, lookup_setCell_ne, assignable_setCell_ne, ne_eq, ho, ha]
        rw [setCell_comm (x := .payload) (y := .offset) nofun]
    · next h0 h8 =>
      cases hd : Ts.deserializeVarint w off with
      | none =>
        rw [hd] at h1
        obtain ⟨sc', h1⟩ := h1
        refine ⟨.let_ .undef, sc', fun n hn => (run_done _ _).symm.trans ?_⟩
        unfold u64Deserialization
        tsrun [hu, hk', h0, h8]
        refine (run_eq (h1 n hn) _).trans ?_
        tsrun
      | some p =>
        obtain ⟨o, z⟩ := p
        rw [hd] at h1
        obtain ⟨sc', h1⟩ := h1
        refine ⟨sc', fun n hn => (run_done _ _).symm.trans ?_⟩
        unfold u64Deserialization
        tsrun [hu, hk', h0, h8]
        refine (run_eq (h1 n hn) _).trans ?_
        tsrun
        rw [hcomm]

/-- A value computed from an integer. -/
theorem exec_viaInteger_none (isField : Bool) {k : Nat} {e : Ex} (hR : Reader .dataView env h r w) (ho : lookup .offset env = some (natV off))
    (ha : assignable .offset env = true) (hu : uninit .payload env = true) (hk : isField = true → lookup .payloadSize env = some (natV k))
    (hd : Ts.readU64 isField k w off = none) : Gives P path (viaInteger isField e) env h sc none := by
  have h1 := exec_u64Deserialization hc (sc := sc) isField (k := k) (off := off)
    (env := (.payload, .uninit) :: (.newPayload, .let_ .undef) :: setCell .payload (.let_ .undef) env)
    (((hR.set (y := .payload) nofun _).enter (y := .newPayload) nofun _).enter (y := .payload) nofun _)
    (by tsrun [lookup_setCell_ne, ne_eq, ho]) (by tsrun [assignable_setCell_ne, ne_eq, ha]) (by tsrun)
    (fun hf => by tsrun [lookup_setCell_ne, ne_eq, hk hf])
  rw [hd] at h1
  obtain ⟨c, sc', h1⟩ := h1
  refine ⟨.let_ .undef, sc', fun n hn => (run_done _ _).symm.trans ?_⟩
  unfold viaInteger
  tsrun [hu, u64Deserialization_declared]
  refine (run_eq (h1 n hn) _).trans ?_
  tsrun

theorem exec_viaInteger_some (isField : Bool) {k : Nat} {e : Ex} (hR : Reader .dataView env h r w) (ho : lookup .offset env = some (natV off))
    (ha : assignable .offset env = true) (hu : uninit .payload env = true) (hk : isField = true → lookup .payloadSize env = some (natV k))
    {o z : Nat} (hd : Ts.readU64 isField k w off = some (o, z)) {out : Out} {h' : List Obj}
    (he : ∀ n env sc, 17 ≤ n → e.eval (ctx P path n) ⟨(.payload, .let_ (.big z)) :: env, h, sc⟩ = some (out, ⟨(.payload, .let_ (.big z)) :: env, h', sc⟩)) :
    (∀ x, out = .val x → ∃ sc', ∀ n, 17 ≤ n → (viaInteger isField e).exec (ctx P path n) ⟨env, h, sc⟩ =
      some (.val .undef, ⟨setCell .payload (.let_ x) (setCell .offset (.let_ (natV o)) env), h', sc'⟩)) ∧
    (∀ x, out = .throw x → ∃ env' sc', ∀ n, 17 ≤ n → (viaInteger isField e).exec (ctx P path n) ⟨env, h, sc⟩ =
      some (.throw x, ⟨env', h', sc'⟩)) := by
  have h1 := exec_u64Deserialization hc (sc := sc) isField (k := k) (off := off)
    (env := (.payload, .uninit) :: (.newPayload, .let_ .undef) :: setCell .payload (.let_ .undef) env)
    (((hR.set (y := .payload) nofun _).enter (y := .newPayload) nofun _).enter (y := .payload) nofun _)
    (by tsrun [lookup_setCell_ne, ne_eq, ho]) (by tsrun [assignable_setCell_ne, ne_eq, ha]) (by tsrun)
    (fun hf => by tsrun [lookup_setCell_ne, ne_eq, hk hf])
  rw [hd] at h1
  obtain ⟨sc', h1⟩ := h1
  refine ⟨fun x hx => ⟨sc', fun n hn => (run_done _ _).symm.trans ?_⟩, fun x hx => ⟨setCell .offset (.let_ (natV o)) (setCell .payload (.let_ .undef) env), sc', fun n hn => (run_done _ _).symm.trans ?_⟩⟩
  · subst hx
    unfold viaInteger
    tsrun [hu, u64Deserialization_declared]
    refine (run_eq (h1 n hn) _).trans ?_
    tsrun
    refine (run_eq (he n _ _ hn) _).trans ?_
    have hu' : uninit .payload (setCell .offset (.let_ (natV o)) env) = true := (uninit_setCell_ne (by nofun) _ _).trans hu
    tsrun [setCell_comm (show TVar.offset ≠ .payload from nofun), setCell_setCell, assignable_setCell .undef (.inl hu')]
  · subst hx
    unfold viaInteger
    tsrun [hu, u64Deserialization_declared]
    refine (run_eq (h1 n hn) _).trans ?_
    tsrun
    refine (run_eq (he n _ _ hn) _).trans ?_
    tsrun
end

/-! ### The range of integers -/

theorem leValue_lt (bs : Bytes) : Ts.leValue bs < 256 ^ bs.length := by
  rw [Ts.leValue_eq]; exact leNat_lt bs

theorem deserializeVarint_range {w : Ts.View} {off o z : Nat} (hd : Ts.deserializeVarint w off = some (o, z)) : z < 18446744073709551616 := by
  unfold Ts.deserializeVarint at hd
  split at hd
  · cases hd
  · next x hx =>
    have hxl := x.toNat_lt
    simp only at hd
    split at hd
    · cases hd
    · next bs hb =>
      have hl := leValue_lt bs
      rw [getBytes_length hb] at hl
      generalize Ts.leValue bs = y at *
      split at hd <;> simp only [Option.some.injEq, Prod.mk.injEq, Nat.shiftLeft_eq, Nat.shiftRight_eq_div_pow] at hd <;> obtain ⟨-, rfl⟩ := hd
      all_goals first | (simp only [*] at hl; omega) | omega

theorem readU64_range {isField : Bool} {k off : Nat} {w : Ts.View} {o z : Nat} (hd : Ts.readU64 isField k w off = some (o, z)) :
    z < 18446744073709551616 := by
  cases isField with
  | false => exact deserializeVarint_range hd
  | true =>
    rw [readU64_true] at hd
    split at hd
    · cases hd; omega
    split at hd
    · cases hb : w.getBytes off 8 with
      | none => rw [hb] at hd; cases hd
      | some bs =>
        rw [hb] at hd
        cases hd
        have hl := leValue_lt bs
        rw [getBytes_length hb] at hl
        exact hl
    · exact deserializeVarint_range hd

theorem toInt_zigzagDecode {z : Nat} (hz : z < 18446744073709551616) : Int64.toInt (Int64.ofInt (Ts.zigzagDecode z)) = Ts.zigzagDecode z := by
  rw [Int64.toInt_ofInt_of_le]
  all_goals (unfold Ts.zigzagDecode; simp only; split <;> omega)

/-! ### Scalars -/

/-- The value of a scalar. -/
abbrev encs (c : Scalar) (p : Option (Nat × c.Val)) : Option (Nat × Val) := p.map fun q => (q.1, encScalar c q.2)

section
variable {P : Prog} {path : List Str} (hc : P.Clear path) {env : Env} {h : List Obj} {sc : Nat → UInt8} {r : Nat} {w : Ts.View} {off : Nat}
include hc

theorem exec_desScalar {T : CharTable} {S : Schemas} {ns ns' : Namespace} {s : Schema} {tv : TypeVariant} {c : Scalar}
    (ht : NamedType T S ns s tv (.scalar c)) (isField : Bool) {k : Nat} (hR : Reader .dataView env h r w) (ho : lookup .offset env = some (natV off))
    (ha : assignable .offset env = true) (hu : uninit .payload env = true) (hk : isField = true → lookup .payloadSize env = some (natV k)) :
    Gives P path (deserialization T s ns' isField tv) env h sc (encs c (Ts.readScalar isField k w off c)) := by
  cases ht with
  | bool =>
    unfold deserialization
    unfold Ts.readScalar
    cases hd : Ts.readU64 isField k w off with
    | none => exact exec_viaInteger_none hc isField hR ho ha hu hk hd
    | some p =>
      obtain ⟨o, z⟩ := p
      refine (exec_viaInteger_some hc isField hR ho ha hu hk hd (out := .val (.bool (decide (z ≠ 0)))) (h' := h) fun n env sc hn => ?_).1 _ rfl
      refine (run_done _ _).symm.trans ?_
      tsrun
      simp
  | f64 =>
    have ho' : lookup .offset (setCell .payload (.let_ .undef) env) = some (natV off) := (lookup_setCell_ne (by nofun) _ _).trans ho
    have ha' : assignable .offset (setCell .payload (.let_ .undef) env) = true := (assignable_setCell_ne (by nofun) _ _).trans ha
    have hp' : assignable .payload (setCell .payload (.let_ .undef) env) = true := assignable_setCell .undef (.inl hu)
    have hR' := hR.set (y := .payload) nofun (.let_ .undef)
    have hcomm : ∀ z : Val, ∀ o : Nat, setCell .payload (.let_ z) (setCell .offset (.let_ (natV o)) (setCell .payload (.let_ .undef) env)) =
        setCell .payload (.let_ z) (setCell .offset (.let_ (natV o)) env) := by
      intro z o
      rw [setCell_comm (x := .offset) (y := .payload) nofun, setCell_setCell]
    unfold deserialization
    unfold Ts.readScalar
    cases isField with
    | true =>
      have hk' : lookup .payloadSize (setCell .payload (.let_ .undef) env) = some (natV k) := (lookup_setCell_ne (by nofun) _ _).trans (hk rfl)
      by_cases h0 : k = 0
      · subst h0
        refine ⟨sc, fun n hn => (run_done _ _).symm.trans ?_⟩
        tsrun [hu, hk', hp', setCell_setCell]
        have hs := update_self _ ha' ho'
        unfold update at hs
        rw [← hcomm, hs, setCell_setCell]
        rfl
      · simp only [h0, and_false, if_false]
        unfold Ts.getFloat64
        cases hd : w.getBytes off 8 with
        | none =>
          refine ⟨.let_ .undef, sc, fun n hn => (run_done _ _).symm.trans ?_⟩
          tsrun [hu, hk', h0, getFloat, hR'.view, ho', run_getFloat64_none hR.buf hR.bound _ _ _ hd]
        | some bs =>
          refine ⟨sc, fun n hn => (run_done _ _).symm.trans ?_⟩
          tsrun [hu, hk', h0, getFloat, hR'.view, ho', run_getFloat64_some hR.buf hR.bound _ _ _ hd, lookup_setCell_ne, assignable_setCell_ne, ne_eq, ho, ha,
            hp', setCell_setCell]
          rw [setCell_comm (x := .payload) (y := .offset) nofun]
          rfl
    | false =>
      simp only [Bool.false_eq_true, false_and, if_false]
      unfold Ts.getFloat64
      cases hd : w.getBytes off 8 with
      | none =>
        refine ⟨.uninit, sc, fun n hn => (run_done _ _).symm.trans ?_⟩
        tsrun [getFloat, hR.view, ho, run_getFloat64_none hR.buf hR.bound _ _ _ hd]
        rw [setCell_uninit hu]
      | some bs =>
        refine ⟨sc, fun n hn => (run_done _ _).symm.trans ?_⟩
        tsrun [getFloat, hR.view, ho, run_getFloat64_some hR.buf hR.bound _ _ _ hd, lookup_setCell_ne, assignable_setCell_ne, ne_eq, ha, hu]
        rw [setCell_comm (x := .payload) (y := .offset) nofun]
        rfl
  | s64 =>
    unfold deserialization
    unfold Ts.readScalar
    have h1 := exec_u64Deserialization hc (sc := sc) isField hR ho ha hu hk
    cases hd : Ts.readU64 isField k w off with
    | none =>
      rw [hd] at h1
      obtain ⟨c, sc', h1⟩ := h1
      refine ⟨c, sc', fun n hn => (run_done _ _).symm.trans ?_⟩
      tsrun
      refine (run_eq (h1 n hn) _).trans ?_
      tsrun
    | some p =>
      obtain ⟨o, z⟩ := p
      rw [hd] at h1
      obtain ⟨sc', h1⟩ := h1
      refine ⟨sc', fun n hn => (run_done _ _).symm.trans ?_⟩
      have hu' : uninit .payload (setCell .offset (.let_ (natV o)) env) = true := (uninit_setCell_ne (by nofun) _ _).trans hu
      tsrun
      refine (run_eq (h1 n hn) _).trans ?_
      tsrun [hc.runtime, lookup_setCell _ (.inl hu'), run_eq (callFn_zigzagDecode P (n := n) (by omega) z _), assignable_setCell _ (.inl hu'), setCell_setCell, encScalar,
        toInt_zigzagDecode (readU64_range hd)]
  | u64 =>
    have h1 := exec_u64Deserialization hc (sc := sc) isField hR ho ha hu hk
    unfold deserialization
    unfold Ts.readScalar
    cases hd : Ts.readU64 isField k w off with
    | none => rw [hd] at h1; exact h1
    | some p =>
      obtain ⟨o, z⟩ := p
      rw [hd] at h1
      have hz := readU64_range hd
      have : encScalar .u64 (UInt64.ofNat z) = .big z := by
        show Val.big ((UInt64.ofNat z).toNat : Int) = _
        rw [UInt64.toNat_ofNat_of_lt' (by rwa [UInt64.size])]
      simp only [Option.map_some, this]
      exact h1
end

end Typical.TsGen

import Verif.Gen.RuntimeSem
import Verif.VarintLemmas
import Verif.IoLemmas

/-!
# The functions at the top of the generated Rust file do what the model says
-/

namespace Typical.Gen.Rt

variable {σ : Type}

/-- The function, called with these arguments while the device is in state `d`, ends with this outcome, and the device is in
state `d'` then. -/
def Runs (t : Target) (D : Device σ) (f : RFn) (vs : List RVal) (d : σ) (o : ROut) (d' : σ) : Prop :=
  ∃ N, ∀ n, N ≤ n → ∀ env, callR t D n f vs ⟨env, d⟩ = some (o, ⟨env, d'⟩)

/-- The function, called with these arguments while the device is in state `d`, never ends. -/
def Diverges (t : Target) (D : Device σ) (f : RFn) (vs : List RVal) (d : σ) : Prop :=
  ∀ n env, callR t D n f vs ⟨env, d⟩ = none

theorem ofCall_val (v : RVal) : (ROut.val v).ofCall = .val v := rfl

theorem ofCall_ret (v : RVal) : (ROut.ret v).ofCall = .val v := rfl

theorem ofCall_device (e : IoErr) : (ROut.device e).ofCall = .device e := rfl

theorem ofDevice_ok {α : Type} (f : α → RVal) (a : α) : ofDevice f (.ok a) = .val (.ok (f a)) := rfl

theorem ofCall_ofDevice {α : Type} (f : α → RVal) (x : Except IoErr α) : (ofDevice f x).ofCall = ofDevice f x := by
  rcases x with (_ | _ | _ | _) | _ <;> rfl

/-- Rules for the execution of known code. -/
macro "rtrun" "[" ts:Lean.Parser.Tactic.simpLemma,* "]" : tactic =>
  `(tactic| simp [callR, RFn.params, RFn.body, REx.eval, RArgs.eval, RArms.select, rarms, rargs, RM.done, RM.bind, RM.bindAll,
    RM.get, RM.set, RM.scoped, lookupVar, assignVar, RPat.matches, RVal.nat, Op.run, arith, subtractRun, negRun, castRun,
    transmuteRun, litVal, asBytes, ofCall_val, ofCall_ret, ofCall_ofDevice, $ts,*])

theorem runs_succ {t : Target} {D : Device σ} {f : RFn} {vs : List RVal} {d d' : σ} {o : ROut} (N : Nat)
    (h : ∀ n, N ≤ n → ∀ env, callR t D (n + 1) f vs ⟨env, d⟩ = some (o, ⟨env, d'⟩)) : Runs t D f vs d o d' :=
  ⟨N + 1, fun n hn env => by
    obtain ⟨m, rfl⟩ : ∃ m, n = m + 1 := ⟨n - 1, by omega⟩
    exact h m (by omega) env⟩

theorem runs_zigzagEncode (t : Target) (D : Device σ) (v : Int64) (d : σ) :
    Runs t D .zigzagEncode [.i64 v] d (.val (.u64 (Typical.zigzagEncode v))) d := by
  refine runs_succ 0 fun n _ env => ?_
  rtrun []
  rfl

theorem runs_zigzagDecode (t : Target) (D : Device σ) (v : UInt64) (d : σ) :
    Runs t D .zigzagDecode [.u64 v] d (.val (.i64 (Typical.zigzagDecode v))) d := by
  refine runs_succ 0 fun n _ env => ?_
  have h : (v &&& 1).toInt64 ≠ Int64.minValue := by
    intro h
    have h2 : (v &&& 1).toNat = v.toNat % 2 := by simp [UInt64.toNat_and, Nat.and_one_is_mod]
    have h1 := congrArg (fun x : Int64 => x.toUInt64.toNat) h
    simp only [UInt64.toUInt64_toInt64, h2] at h1
    have : (Int64.minValue.toUInt64).toNat = 9223372036854775808 := by decide
    omega
  have h' : v.toInt64 &&& 1 ≠ Int64.minValue := by
    intro h'
    exact h (by simpa using h')
  rtrun [h']
  rfl

theorem select_hit {c : RCtx σ} {lo hi : Nat} {b : Bool} {e : REx} {as : RArms} {v : UInt64} (h : lo ≤ v.toNat ∧ v.toNat ≤ hi) :
    (RArms.cons (.range lo hi) b e as).select c (.u64 v) = RM.scoped [] (e.eval c) := by
  simp [RArms.select, RPat.matches, RVal.nat, h]

theorem select_miss {c : RCtx σ} {lo hi : Nat} {b : Bool} {e : REx} {as : RArms} {v : UInt64} (h : ¬ (lo ≤ v.toNat ∧ v.toNat ≤ hi)) :
    (RArms.cons (.range lo hi) b e as).select c (.u64 v) = as.select c (.u64 v) := by
  rw [RArms.select]
  simp only [RPat.matches, RVal.nat, Option.bind_some, if_neg h]

/-- The nine lengths. -/
theorem nine (v : UInt64) : v.toNat ≤ 127 ∨ (128 ≤ v.toNat ∧ v.toNat ≤ 16511) ∨ (16512 ≤ v.toNat ∧ v.toNat ≤ 2113663) ∨
    (2113664 ≤ v.toNat ∧ v.toNat ≤ 270549119) ∨ (270549120 ≤ v.toNat ∧ v.toNat ≤ 34630287487) ∨
    (34630287488 ≤ v.toNat ∧ v.toNat ≤ 4432676798591) ∨ (4432676798592 ≤ v.toNat ∧ v.toNat ≤ 567382630219903) ∨
    (567382630219904 ≤ v.toNat ∧ v.toNat ≤ 72624976668147839) ∨
    (72624976668147840 ≤ v.toNat ∧ v.toNat ≤ 18446744073709551615) := by
  have := v.toNat_lt
  omega

theorem runs_varintSizeFromValue (t : Target) (D : Device σ) (v : UInt64) (d : σ) :
    Runs t D .varintSizeFromValue [.u64 v] d (.val (.usize (Typical.varintSizeFromValue v))) d := by
  refine runs_succ 0 fun n _ env => ?_
  simp only [varintSizeFromValue, UInt64.le_iff_toNat_le, UInt64.reduceToNat]
  simp only [callR, RFn.params, RFn.body, REx.eval, rarms, List.zip_cons_cons, List.zip_nil_right, RM.get, lookupVar, RM.bind,
    RM.done, List.length_cons, List.length_nil, if_true]
  rcases nine v with h | h | h | h | h | h | h | h | h
  all_goals
    repeat first
      | rw [select_miss (by omega)]
      | rw [select_hit (by omega)]
      | rw [if_neg (show ¬ v.toNat ≤ _ by omega)]
      | rw [if_pos (show v.toNat ≤ _ by omega)]
    rtrun []

theorem call_varintSizeFromFirstByte (t : Target) (D : Device σ) (b : UInt8) (s : RSt σ) (n : Nat) :
    callR t D (n + 1) .varintSizeFromFirstByte [.u8 b] s = some (.val (.u32 (UInt32.ofNat (Typical.varintSizeFromFirstByte b))), s) := by
  have := trailingZeros_le b
  have h : ¬ (4294967296 ≤ Typical.trailingZeros b % 4294967296 + 1) := by omega
  rtrun [h]
  simp [varintSizeFromFirstByte, UInt32.ofNat_add]

theorem runs_varintSizeFromFirstByte (t : Target) (D : Device σ) (b : UInt8) (d : σ) :
    Runs t D .varintSizeFromFirstByte [.u8 b] d (.val (.u32 (UInt32.ofNat (Typical.varintSizeFromFirstByte b)))) d :=
  runs_succ 0 fun n _ env => call_varintSizeFromFirstByte t D b ⟨env, d⟩ n

/-- What writing gives. -/
def wrote (D : Device σ) (d : σ) (b : Bytes) : ROut × σ := (ofDevice (fun _ => .unit) (D.writeAll d b).1, (D.writeAll d b).2)

theorem runs_serializeVarint (t : Target) (D : Device σ) (v : UInt64) (d : σ) :
    Runs t D .serializeVarint [.u64 v, .writer] d (wrote D d (Typical.serializeVarint v)).1 (wrote D d (Typical.serializeVarint v)).2 := by
  refine runs_succ 0 fun n _ env => ?_
  simp only [serializeVarint, UInt64.le_iff_toNat_le, UInt64.reduceToNat]
  simp only [callR, RFn.params, RFn.body, REx.eval, rarms, List.zip_cons_cons, List.zip_nil_right, RM.get, lookupVar, RM.bind,
    RM.done, List.length_cons, List.length_nil, if_true]
  rcases nine v with h | h | h | h | h | h | h | h | h
  · rw [select_hit (by omega), if_pos h]
    rtrun [wrote]
  all_goals
    repeat first
      | rw [select_miss (by omega)]
      | rw [select_hit (by omega)]
      | rw [if_neg (show ¬ v.toNat ≤ _ by omega)]
      | rw [if_pos (show v.toNat ≤ _ by omega)]
    have h' := Nat.not_lt.mpr h.1
    clear h
    rtrun [h', wrote]

theorem add_run {t : Target} {a b : UInt64} (h : a.toNat + b.toNat < 2 ^ 64) : Op.add.run t (.u64 a) (.u64 b) = .val (.u64 (a + b)) := by
  have h : ¬ 2 ^ 64 ≤ a.toNat + b.toNat := by omega
  simp only [Op.run, arith, h, decide_false, Bool.and_false, Bool.false_eq_true, if_false]

theorem ofNat_lt_toNat {n : Nat} (h : n < 2 ^ 64) : (UInt64.ofNat n).toNat = n := by
  simp only [UInt64.toNat_ofNat']
  omega

/-- The sums of `deserialize_varint`. -/
theorem eval_sum {c : RCtx σ} {lo k j : Nat} {b : UInt8} {r : UInt64} {s : RSt σ} (h1 : lookupVar .firstByte s.env = some (.u8 b))
    (h2 : lookupVar .remainingBytesValue s.env = some (.u64 r)) (hk : k < 8) (hj : j < 64)
    (h : lo + 256 + r.toNat * 2 ^ j < 2 ^ 64) :
    (REx.bin .add (.bin .add (u64 lo) (fromFirst k)) (fromRemaining j)).eval c s =
      some (.val (.u64 (UInt64.ofNat lo + (b >>> UInt8.ofNat k).toUInt64 + (r <<< UInt64.ofNat j))), s) := by
  have hb : (b >>> UInt8.ofNat k).toUInt64.toNat < 256 := by
    rw [UInt8.toNat_toUInt64]
    exact UInt8.toNat_lt _
  have hp : 0 < 2 ^ j := Nat.pow_pos (by decide)
  have hr : (r <<< UInt64.ofNat j).toNat ≤ r.toNat * 2 ^ j := by
    rw [UInt64.toNat_shiftLeft, ofNat_lt_toNat (by omega), Nat.mod_eq_of_lt hj, Nat.shiftLeft_eq]
    exact Nat.mod_le _ _
  have hlo : (UInt64.ofNat lo).toNat = lo := ofNat_lt_toNat (by omega)
  have e1 : (UInt32.ofNat k).toUInt8 = UInt8.ofNat k := by simp
  have e2 : (UInt32.ofNat j).toUInt64 = UInt64.ofNat j := by
    apply UInt64.toNat.inj
    rw [ofNat_lt_toNat (by omega), UInt32.toNat_toUInt64]
    simp
    omega
  have e3 : ¬ 8 ≤ (UInt32.ofNat k).toNat := by simp; omega
  have e4 : ¬ 64 ≤ (UInt32.ofNat j).toNat := by simp; omega
  have s1 : (UInt64.ofNat lo).toNat + (b >>> UInt8.ofNat k).toUInt64.toNat < 2 ^ 64 := by omega
  have s2 : (UInt64.ofNat lo + (b >>> UInt8.ofNat k).toUInt64).toNat + (r <<< UInt64.ofNat j).toNat < 2 ^ 64 := by
    rw [UInt64.toNat_add, Nat.mod_eq_of_lt s1]
    omega
  have o1 : Op.shr.run c.target (.u8 b) (.u32 (UInt32.ofNat k)) = .val (.u8 (b >>> UInt8.ofNat k)) := by
    simp only [Op.run, arith, e3, e1, decide_false, Bool.and_false, Bool.false_eq_true, if_false]
  have o2 : Op.shl.run c.target (.u64 r) (.u32 (UInt32.ofNat j)) = .val (.u64 (r <<< UInt64.ofNat j)) := by
    simp only [Op.run, arith, e4, e2, decide_false, Bool.and_false, Bool.false_eq_true, if_false]
  simp only [REx.eval, RM.done, RM.bind, RM.get, litVal, h1, h2, o1, o2, add_run s1, add_run s2]

/-! ### Reading -/

theorem read_length : (r : Reader) → (n : Nat) → {b : Bytes} → {r' : Reader} → r.read n = (.ok b, r') → b.length ≤ n
  | .device buf events, n, b, r', h => by
    unfold Reader.read at h
    split at h
    · simp at h
    · rename_i b' r'' _
      simp only [Prod.mk.injEq, Except.ok.injEq] at h
      rw [← h.1]
      simp
      omega
  | .take limit inner, n, b, r', h => by
    rw [Reader.read] at h
    split at h
    · cases h
      simp
    · split at h
      · simp at h
      · rename_i heq
        have := read_length inner _ heq
        cases h
        omega

theorem readExactLoop_length : (fuel n : Nat) → {r : Reader} → {b : Bytes} → {r' : Reader} →
    readExactLoop fuel n r = (.ok b, r') → b.length = n
  | 0, _, _, _, _, h => by simp [readExactLoop] at h
  | fuel + 1, n, r, b, r', h => by
    rw [readExactLoop] at h
    split at h
    · rename_i hn
      cases h
      simp [hn]
    · split at h
      · exact readExactLoop_length fuel n h
      · simp at h
      · rename_i heq
        have h1 := read_length _ _ heq
        split at h
        · simp at h
        · split at h
          · rename_i heq'
            have h2 := readExactLoop_length fuel _ heq'
            cases h
            simp
            omega
          · simp at h

theorem readExactR_length {n : Nat} {r : Reader} {b : Bytes} {r' : Reader} (h : readExactR n r = (.ok b, r')) : b.length = n :=
  readExactLoop_length _ _ h

theorem fromLeBytes_zeros (n : Nat) : fromLeBytes (List.replicate n 0) = 0 := by
  induction n with
  | zero => rfl
  | succ n ih => simp [List.replicate_succ, fromLeBytes, ih]

theorem fromLeBytes_append_zeros (b : Bytes) (n : Nat) : fromLeBytes (b ++ List.replicate n 0) = fromLeBytes b := by
  induction b with
  | nil => exact fromLeBytes_zeros n
  | cons a b ih => simp [fromLeBytes, ih]

/-- The value of `deserialize_varint`, from the first byte and the value of the others. -/
def varintOf (b : UInt8) (rest : UInt64) : UInt64 :=
  match Typical.trailingZeros b with
  | 0 => (b >>> 1).toUInt64
  | 1 => (128 : UInt64) + (b >>> 2).toUInt64 + (rest <<< 6)
  | 2 => (16512 : UInt64) + (b >>> 3).toUInt64 + (rest <<< 5)
  | 3 => (2113664 : UInt64) + (b >>> 4).toUInt64 + (rest <<< 4)
  | 4 => (270549120 : UInt64) + (b >>> 5).toUInt64 + (rest <<< 3)
  | 5 => (34630287488 : UInt64) + (b >>> 6).toUInt64 + (rest <<< 2)
  | 6 => (4432676798592 : UInt64) + (b >>> 7).toUInt64 + (rest <<< 1)
  | 7 => (567382630219904 : UInt64) + rest
  | _ => (72624976668147840 : UInt64) + rest

theorem deserializeVarintR_eq (r : Reader) : deserializeVarintR r =
    match readExactR 1 r with
    | (.error e, r) => (.error e, r)
    | (.ok b, r) =>
      match readExactR (Typical.trailingZeros (b.headD 0)) r with
      | (.error e, r) => (.error e, r)
      | (.ok rest, r) => (.ok (varintOf (b.headD 0) (fromLeBytes rest)), r) := by
  unfold deserializeVarintR
  rcases readExactR 1 r with ⟨_ | b, r1⟩
  · rfl
  · dsimp only
    rcases readExactR (Typical.trailingZeros (b.headD 0)) r1 with ⟨_ | rest, r2⟩
    · rfl
    · simp only [varintOf]
      generalize Typical.trailingZeros (b.headD 0) = k
      rcases k with _ | _ | _ | _ | _ | _ | _ | _ | k <;> rfl

/-- The arms of `deserialize_varint`. -/
def varintArms : RArms := rarms [
      (.lit .plain 0, false, .ok (fromFirst 1)),
      (.lit .plain 1, false, .ok (.bin .add (.bin .add (u64 128) (fromFirst 2)) (fromRemaining 6))),
      (.lit .plain 2, false, .ok (.bin .add (.bin .add (u64 16512) (fromFirst 3)) (fromRemaining 5))),
      (.lit .plain 3, false, .ok (.bin .add (.bin .add (u64 2113664) (fromFirst 4)) (fromRemaining 4))),
      (.lit .plain 4, true, .ok (.bin .add (.bin .add (u64 270549120) (fromFirst 5)) (fromRemaining 3))),
      (.lit .plain 5, false, .ok (.addLine (.addLine (u64 34630287488) (fromFirst 6)) (fromRemaining 2))),
      (.lit .plain 6, false, .ok (.addLine (.addLine (u64 4432676798592) (fromFirst 7)) (fromRemaining 1))),
      (.lit .plain 7, false, .ok (.bin .add (u64 567382630219904) (.var .remainingBytesValue))),
      (.wild, false, .ok (.wrappingAdd (u64 72624976668147840) (.var .remainingBytesValue)))]

theorem select_lit {c : RCtx σ} {st : LitStyle} {k : Nat} {bl : Bool} {e : REx} {as : RArms} {v : RVal} {n : Nat} (h : v.nat = some n)
    {s : RSt σ} : (RArms.cons (.lit st k) bl e as).select c v s = if n = k then RM.scoped [] (e.eval c) s else as.select c v s := by
  rw [RArms.select]
  by_cases hn : n = k
  · simp [RPat.matches, h, hn]
  · simp [RPat.matches, h, hn]

theorem select_wild {c : RCtx σ} {bl : Bool} {e : REx} {as : RArms} {v : RVal} {s : RSt σ} :
    (RArms.cons .wild bl e as).select c v s = RM.scoped [] (e.eval c) s := rfl

theorem scoped_nil {m : RM σ} {s : RSt σ} {o : ROut} (h : m s = some (o, s)) : RM.scoped [] m s = some (o, s) := by
  simp [RM.scoped, h]

theorem eval_ok {c : RCtx σ} {e : REx} {s : RSt σ} {v : RVal} (h : e.eval c s = some (.val v, s)) :
    (REx.ok e).eval c s = some (.val (.ok v), s) := by
  simp [REx.eval, RM.bind, h, RM.done]

theorem varintArms_select {c : RCtx σ} {b : UInt8} {rest : Bytes} {s : RSt σ} (h1 : lookupVar .firstByte s.env = some (.u8 b))
    (h2 : lookupVar .remainingBytesValue s.env = some (.u64 (fromLeBytes rest))) (h : rest.length = Typical.trailingZeros b) :
    varintArms.select c (.u32 (UInt32.ofNat (Typical.trailingZeros b))) s = some (.val (.ok (.u64 (varintOf b (fromLeBytes rest)))), s) := by
  have hz := trailingZeros_le b
  have hr : (fromLeBytes rest).toNat < 256 ^ Typical.trailingZeros b := by
    rw [toNat_fromLeBytes rest (by omega), ← h]
    exact leNat_lt rest
  have hv : (RVal.u32 (UInt32.ofNat (Typical.trailingZeros b))).nat = some (Typical.trailingZeros b) := by
    simp [RVal.nat]
    omega
  unfold varintOf
  simp only [varintArms, rarms]
  generalize Typical.trailingZeros b = k at *
  have cases : k = 0 ∨ k = 1 ∨ k = 2 ∨ k = 3 ∨ k = 4 ∨ k = 5 ∨ k = 6 ∨ k = 7 ∨ k = 8 := by omega
  simp only [select_lit hv]
  rcases cases with rfl | rfl | rfl | rfl | rfl | rfl | rfl | rfl | rfl
  · rw [if_pos rfl]
    refine scoped_nil (eval_ok ?_)
    rtrun [h1]
  · rw [if_neg (by decide), if_pos rfl]
    exact scoped_nil (eval_ok (eval_sum h1 h2 (by decide) (by decide) (by omega)))
  · rw [if_neg (by decide), if_neg (by decide), if_pos rfl]
    exact scoped_nil (eval_ok (eval_sum h1 h2 (by decide) (by decide) (by omega)))
  · rw [if_neg (by decide), if_neg (by decide), if_neg (by decide), if_pos rfl]
    exact scoped_nil (eval_ok (eval_sum h1 h2 (by decide) (by decide) (by omega)))
  · rw [if_neg (by decide), if_neg (by decide), if_neg (by decide), if_neg (by decide), if_pos rfl]
    exact scoped_nil (eval_ok (eval_sum h1 h2 (by decide) (by decide) (by omega)))
  · rw [if_neg (by decide), if_neg (by decide), if_neg (by decide), if_neg (by decide), if_neg (by decide), if_pos rfl]
    exact scoped_nil (eval_ok (eval_sum h1 h2 (by decide) (by decide) (by omega)))
  · rw [if_neg (by decide), if_neg (by decide), if_neg (by decide), if_neg (by decide), if_neg (by decide), if_neg (by decide),
      if_pos rfl]
    exact scoped_nil (eval_ok (eval_sum h1 h2 (by decide) (by decide) (by omega)))
  · rw [if_neg (by decide), if_neg (by decide), if_neg (by decide), if_neg (by decide), if_neg (by decide), if_neg (by decide),
      if_neg (by decide), if_pos rfl]
    refine scoped_nil (eval_ok ?_)
    have : (UInt64.ofNat 567382630219904).toNat + (fromLeBytes rest).toNat < 2 ^ 64 := by
      rw [ofNat_lt_toNat (by decide)]
      omega
    simp only [REx.eval, RM.done, RM.bind, RM.get, litVal, h2, add_run this]
    rfl
  · rw [if_neg (by decide), if_neg (by decide), if_neg (by decide), if_neg (by decide), if_neg (by decide), if_neg (by decide),
      if_neg (by decide), if_neg (by decide), select_wild]
    refine scoped_nil (eval_ok ?_)
    simp only [REx.eval, RM.done, RM.bind, RM.get, litVal, h2]
    rfl

theorem body_deserializeVarint : RFn.deserializeVarint.body =
    (.letIn true .firstByteBuffer (.zeros 1) <|
    .seq (.try_ (.readAll .firstByteBuffer)) <|
    .letIn false .firstByte (.first .firstByteBuffer) <|
    .letIn false .sizeMinusOne (.trailingZeros (.var .firstByte)) <|
    .blank <|
    .letIn true .remainingBytesBuffer (.zeros 8) <|
    .seq (.try_ (.readPart .remainingBytesBuffer (.cast (.var .sizeMinusOne) .usize))) <|
    .letIn false .remainingBytesValue (.fromLeBytes (.var .remainingBytesBuffer)) <|
    .blank <|
    .match_ (.var .sizeMinusOne) varintArms) := rfl

/-- `rtrun` for `deserialize_varint`. -/
macro "rtvar" "[" ts:Lean.Parser.Tactic.simpLemma,* "]" : tactic =>
  `(tactic| simp only [callR, RFn.params, body_deserializeVarint, REx.eval, List.zip_cons_cons, List.zip_nil_right, RM.done, RM.bind, RM.scoped,
    RM.get, lookupVar, assignVar, List.length_cons, List.length_nil, if_true, readInto, io, List.cons_append, List.nil_append,
    List.length_replicate, reduceCtorEq, if_false, ofDevice, castRun, Option.map_some, ofCall_val, ofCall_ret, $ts,*])

theorem runs_deserializeVarint (t : Target) (ht : 16 ≤ t.bits) (r : Reader) (w : Writer) :
    Runs t io .deserializeVarint [.reader] (r, w) (ofDevice .u64 (deserializeVarintR r).1) ((deserializeVarintR r).2, w) := by
  refine runs_succ 0 fun n _ env => ?_
  rw [deserializeVarintR_eq]
  have hp : 2 ^ 16 ≤ 2 ^ t.bits := Nat.pow_le_pow_right (n := 2) (by decide) ht
  rcases h1 : readExactR 1 r with ⟨e | b, r1⟩
  · dsimp only
    rcases e with _ | _ | _ | _ <;> rtvar [h1] <;> rfl
  · have hb := readExactR_length h1
    obtain ⟨first, rfl⟩ : ∃ x, b = [x] := List.length_eq_one_iff.mp hb
    have hz := trailingZeros_le first
    have hu : (UInt32.ofNat (Typical.trailingZeros first)).toNat % 2 ^ t.bits = Typical.trailingZeros first := by
      rw [Nat.mod_eq_of_lt]
      · simp
        omega
      · simp
        omega
    dsimp only [List.headD_cons]
    rcases h2 : readExactR (Typical.trailingZeros first) r1 with ⟨e | rest, r2⟩
    · dsimp only
      rcases e with _ | _ | _ | _ <;> rtvar [h1, h2, hu, if_pos hz] <;> rfl
    · have hrest := readExactR_length h2
      have hl : (rest ++ List.drop (Typical.trailingZeros first) (List.replicate 8 0)).length = 8 := by
        simp
        omega
      have hd : fromLeBytes (rest ++ List.drop (Typical.trailingZeros first) (List.replicate 8 0)) = fromLeBytes rest := by
        rw [List.drop_replicate]
        exact fromLeBytes_append_zeros _ _
      rtvar [h1, h2, hu, if_pos hz, hl]
      simp only [hd]
      rw [varintArms_select (b := first) (rest := rest) rfl rfl hrest]
      rfl

/-! ### Field headers -/

theorem tag_eval {c : RCtx σ} {k : Nat} {i : UInt64} {s : RSt σ} (h : lookupVar .index s.env = some (.u64 i)) :
    (tagEx k).eval c s = some (.val (.u64 ((i <<< 2) ||| UInt64.ofNat k)), s) := by
  rtrun [h]

theorem varintSize_le (v : UInt64) : Typical.varintSizeFromValue v ≤ 9 := by
  unfold varintSizeFromValue
  repeat' split
  all_goals omega

theorem fieldHeaderSize_other (i : UInt64) {n : Nat} (h0 : n ≠ 0) (h8 : n ≠ 8) (b : Bool) : Typical.fieldHeaderSize i.toNat n b =
    if b then Typical.varintSizeFromValue ((i <<< 2) ||| 2)
    else Typical.varintSizeFromValue ((i <<< 2) ||| 3) + Typical.varintSizeFromValue (UInt64.ofNat n) := by
  unfold fieldHeaderSize
  simp only [UInt64.ofNat_toNat]

theorem runs_fieldHeaderSize (t : Target) (ht : 16 ≤ t.bits) (D : Device σ) (i : UInt64) (n : Nat) (b : Bool) (d : σ) :
    Runs t D .fieldHeaderSize [.u64 i, .usize n, .bool b] d (.val (.usize (Typical.fieldHeaderSize i.toNat n b))) d := by
  have hp : 2 ^ 16 ≤ 2 ^ t.bits := Nat.pow_le_pow_right (n := 2) (by decide) ht
  have call := fun v => runs_varintSizeFromValue t D v d
  obtain ⟨N0, c0⟩ := call ((i <<< 2) ||| UInt64.ofNat 0)
  obtain ⟨N1, c1⟩ := call ((i <<< 2) ||| UInt64.ofNat 1)
  obtain ⟨N2, c2⟩ := call ((i <<< 2) ||| UInt64.ofNat 2)
  obtain ⟨N3, c3⟩ := call ((i <<< 2) ||| UInt64.ofNat 3)
  obtain ⟨N4, c4⟩ := call (UInt64.ofNat n)
  refine runs_succ (N0 + N1 + N2 + N3 + N4) fun m hm env => ?_
  have c0 := c0 m (by omega)
  have c1 := c1 m (by omega)
  have c2 := c2 m (by omega)
  have c3 := c3 m (by omega)
  have c4 := c4 m (by omega)
  simp at c0 c1 c2 c3
  have s3 := varintSize_le ((i <<< 2) ||| 3)
  have s4 := varintSize_le (UInt64.ofNat n)
  have h3 : ¬ (2 ^ t.bits ≤ Typical.varintSizeFromValue ((i <<< 2) ||| 3) + Typical.varintSizeFromValue (UInt64.ofNat n)) := by omega
  have h4 : (Typical.varintSizeFromValue ((i <<< 2) ||| 3) + Typical.varintSizeFromValue (UInt64.ofNat n)) % 2 ^ t.bits =
      Typical.varintSizeFromValue ((i <<< 2) ||| 3) + Typical.varintSizeFromValue (UInt64.ofNat n) := Nat.mod_eq_of_lt (by omega)
  by_cases h0 : n = 0
  · subst h0
    rtrun [c0, fieldHeaderSize]
  · by_cases h8 : n = 8
    · subst h8
      rtrun [c1, fieldHeaderSize]
    · rw [fieldHeaderSize_other i h0 h8]
      cases b
      · rtrun [c3, c4, h0, h8, h3, h4]
      · rtrun [c2, h0, h8]

theorem runs_serializeFieldHeader (t : Target) (r : Reader) (w : Writer) (i : UInt64) (n : Nat) (b : Bool) :
    Runs t io .serializeFieldHeader [.writer, .u64 i, .usize n, .bool b] (r, w)
      (ofDevice (fun _ => .unit) (serializeFieldHeaderW i.toNat n b w).1) (r, (serializeFieldHeaderW i.toNat n b w).2) := by
  have call := fun (v : UInt64) (w : Writer) => runs_serializeVarint t io v (r, w)
  obtain ⟨N0, c0⟩ := call ((i <<< 2) ||| UInt64.ofNat 0) w
  obtain ⟨N1, c1⟩ := call ((i <<< 2) ||| UInt64.ofNat 1) w
  obtain ⟨N2, c2⟩ := call ((i <<< 2) ||| UInt64.ofNat 2) w
  obtain ⟨N3, c3⟩ := call ((i <<< 2) ||| UInt64.ofNat 3) w
  obtain ⟨N4, c4⟩ := call (UInt64.ofNat n) (serializeVarintW ((i <<< 2) ||| 3) w).2
  refine runs_succ (N0 + N1 + N2 + N3 + N4) fun m hm env => ?_
  have c0 := c0 m (by omega)
  have c1 := c1 m (by omega)
  have c2 := c2 m (by omega)
  have c3 := c3 m (by omega)
  have c4 := c4 m (by omega)
  simp only [wrote, io] at c0 c1 c2 c3 c4
  simp at c0 c1 c2 c3
  by_cases h0 : n = 0
  · subst h0
    rtrun [c0, serializeFieldHeaderW, serializeVarintW, io]
  · by_cases h8 : n = 8
    · subst h8
      rtrun [c1, serializeFieldHeaderW, serializeVarintW, io]
    · have hm : serializeFieldHeaderW i.toNat n b w = if b then serializeVarintW ((i <<< 2) ||| 2) w
          else ((serializeVarintW ((i <<< 2) ||| 3)).andThen (serializeVarintW (UInt64.ofNat n))) w := by
        unfold serializeFieldHeaderW
        simp only [UInt64.ofNat_toNat]
        cases b <;> rfl
      rw [hm]
      cases b
      · simp only [WriteM.andThen, serializeVarintW] at c4 ⊢
        rcases hw : Typical.writeAll (Typical.serializeVarint ((i <<< 2) ||| 3)) w with ⟨e | _, w'⟩
        · rw [hw] at c3
          rcases e with _ | _ | _ | _ <;> rtrun [c3, h0, h8, io, ofDevice, ofCall_device]
        · rw [hw] at c3 c4
          rtrun [c3, c4, h0, h8, io, ofDevice_ok]
      · rtrun [c2, h0, h8, serializeVarintW, io]

theorem io_fillBuf (r : Reader) (w : Writer) : io.fillBuf (r, w) = (r.fillBuf.1.mapError .io, (r.fillBuf.2, w)) := rfl

theorem io_consume (r : Reader) (w : Writer) (n : Nat) : io.consume (r, w) n = (r.consume n, w) := rfl

/-- The result of `deserialize_field_header`. -/
def headerVal (t : Target) (x : Nat × Nat) : RVal := .pair (.u64 (UInt64.ofNat x.1)) (.usize (x.2 % 2 ^ t.bits))

theorem shr_eval {c : RCtx σ} {v : UInt64} {s : RSt σ} (h : lookupVar .tag s.env = some (.u64 v)) :
    (shr (.var .tag) 2).eval c s = some (.val (.u64 (v >>> 2)), s) := by
  rtrun [h]

theorem runs_deserializeFieldHeader (t : Target) (ht : 16 ≤ t.bits) (r : Reader) (w : Writer) :
    Runs t io .deserializeFieldHeader [.reader] (r, w) (ofDevice (headerVal t) (deserializeFieldHeaderR r).1)
      ((deserializeFieldHeaderR r).2, w) := by
  have hp : 2 ^ 16 ≤ 2 ^ t.bits := Nat.pow_le_pow_right (n := 2) (by decide) ht
  obtain ⟨N0, c0⟩ := runs_deserializeVarint t ht r w
  obtain ⟨N1, c1⟩ := runs_deserializeVarint t ht (deserializeVarintR r).2 w
  have c2 : ∀ m, 1 ≤ m → ∀ (s : RSt (Reader × Writer)) b, callR t io m .varintSizeFromFirstByte [.u8 b] s =
      some (.val (.u32 (UInt32.ofNat (Typical.varintSizeFromFirstByte b))), s) := fun m hm s b => by
    obtain ⟨k, rfl⟩ : ∃ k, m = k + 1 := ⟨m - 1, by omega⟩
    exact call_varintSizeFromFirstByte t io b s k
  refine runs_succ (N0 + N1 + 1) fun m hm env => ?_
  have c0 := c0 m (by omega)
  have c1 := c1 m (by omega)
  have c2 := c2 m (by omega)
  rcases h0 : deserializeVarintR r with ⟨e | tag, r1⟩
  · simp only [deserializeFieldHeaderR, h0]
    simp only [h0] at c0
    rcases e with _ | _ | _ | _ <;> rtrun [c0, ofDevice, ofCall_device]
  · simp only [h0, ofDevice_ok] at c0 c1
    simp only [deserializeFieldHeaderR, h0]
    have hx : UInt64.ofNat (tag.toNat >>> 2) = tag >>> 2 := by
      apply UInt64.toNat.inj
      have := tag.toNat_lt
      rw [ofNat_lt_toNat (by rw [Nat.shiftRight_eq_div_pow]; omega)]
      simp
    have cases : (tag &&& 3).toNat = 0 ∨ (tag &&& 3).toNat = 1 ∨ (tag &&& 3).toNat = 2 ∨ (tag &&& 3).toNat = 3 := by
      have : (tag &&& 3).toNat = tag.toNat % 4 := by
        rw [UInt64.toNat_and]
        exact Nat.and_two_pow_sub_one_eq_mod _ 2
      omega
    rcases cases with h | h | h | h
    · have e : tag &&& 3 = 0 := UInt64.toNat.inj h
      rtrun [c0, e, headerVal, ofDevice_ok, hx]
    · have e : tag &&& 3 = 1 := UInt64.toNat.inj h
      have h8 : 8 % 2 ^ t.bits = 8 := Nat.mod_eq_of_lt (by omega)
      rtrun [c0, e, headerVal, ofDevice_ok, hx, h8]
    · have e : tag &&& 3 = 2 := UInt64.toNat.inj h
      rcases h1 : r1.fillBuf with ⟨k | _ | ⟨b, bs⟩, r2⟩
      · rtrun [c0, e, io_fillBuf, h1, Except.mapError, ofDevice]
      · rtrun [c0, e, io_fillBuf, h1, Except.mapError, ofDevice]
      · have hb := trailingZeros_le b
        have hm : Typical.varintSizeFromFirstByte b % 4294967296 = Typical.varintSizeFromFirstByte b :=
          Nat.mod_eq_of_lt (by unfold varintSizeFromFirstByte; omega)
        rtrun [c0, c2, e, io_fillBuf, h1, Except.mapError, ofDevice, headerVal, hx, hm]
    · have e : tag &&& 3 = 3 := UInt64.toNat.inj h
      rcases h1 : deserializeVarintR r1 with ⟨k | size, r2⟩
      · simp only [h1] at c1
        rcases k with _ | _ | _ | _ <;> rtrun [c0, c1, e, ofDevice, ofCall_device]
      · simp only [h1] at c1
        rtrun [c0, c1, e, ofDevice_ok, headerVal, hx]

/-! ### Loops -/

theorem exists_represents : (events : List Event) → ∃ s, Represents (fun _ => True) events s
  | [] => ⟨[], rfl⟩
  | .data b bs :: events => by
    obtain ⟨s, h⟩ := exists_represents events
    exact ⟨b :: bs ++ s, s, rfl, h⟩
  | .fail k :: events => by
    obtain ⟨s, h⟩ := exists_represents events
    exact ⟨s, trivial, fun _ => h⟩

theorem exists_rep : (r : Reader) → ∃ t, Rep (fun _ => True) r t
  | .device buf events => by
    obtain ⟨s, h⟩ := exists_represents events
    exact ⟨buf ++ s, s, rfl, h⟩
  | .take _ inner => exists_rep inner

/-- Having reached the end, a reader stays there. -/
theorem fillBuf_end : (r : Reader) → {r' : Reader} → r.fillBuf = (.ok [], r') → r'.fillBuf = (.ok [], r')
  | .device (b :: buf) events, r', h => by simp [Reader.fillBuf] at h
  | .device [] [], r', h => by
    simp only [Reader.fillBuf, Prod.mk.injEq, true_and] at h
    subst h
    rfl
  | .device [] (.data b bs :: events), r', h => by simp [Reader.fillBuf] at h
  | .device [] (.fail k :: events), r', h => by simp [Reader.fillBuf] at h
  | .take limit inner, r', h => by
    rw [Reader.fillBuf] at h
    by_cases hl : limit = 0
    · rw [if_pos hl] at h
      simp only [Prod.mk.injEq, true_and] at h
      subst h
      rw [Reader.fillBuf, if_pos hl]
    · rw [if_neg hl] at h
      rcases hi : inner.fillBuf with ⟨k | b, i'⟩
      · simp [hi] at h
      · simp only [hi, Prod.mk.injEq, Except.ok.injEq] at h
        obtain ⟨h1, h2⟩ := h
        have hb : b = [] := by
          rcases List.take_eq_nil_iff.mp h1 with h | h
          · exact absurd h hl
          · exact h
        subst hb
        have := fillBuf_end inner hi
        rw [← h2, Reader.fillBuf, if_neg hl, this]
        simp

theorem iterate_succ (body : RM σ) (n : Nat) (s : RSt σ) : body.iterate (n + 1) s =
    match body s with
    | some (.val (.bool false), s) => some (.val .unit, s)
    | some (.val _, s) => body.iterate n s
    | r => r := rfl

/-- One round of `skip`. -/
def skipRound (c : RCtx σ) : RM σ := ((REx.bin .gt (.var .amount) (.lit .usize .plain 0)).eval c).bind fun
    | .bool true => (REx.letIn false .buffer (.try_ (.fillBuf false)) <|
        .letIn false .numBytesToConsume (.min (.len .buffer) (.var .amount)) <|
        .seq (.consume (.var .numBytesToConsume)) <|
        .subtract .amount (.var .numBytesToConsume) .done).eval c
    | .bool false => .done (.val (.bool false))
    | _ => .done .stuck

/-- The state between two rounds. -/
def skipSt (a : Nat) (r : Reader) (w : Writer) : RSt (Reader × Writer) := ⟨[(.reader, .reader), (.amount, .usize a)], (r, w)⟩

variable {c : RCtx (Reader × Writer)} {w : Writer}

theorem skipRound_end {r : Reader} : skipRound c (skipSt 0 r w) = some (.val (.bool false), skipSt 0 r w) := by
  simp only [skipRound, skipSt]
  rtrun []

theorem skipRound_error (hD : c.device = io) {a : Nat} (ha : a ≠ 0) {r r' : Reader} {k : Kind} (h : r.fillBuf = (.error k, r')) :
    skipRound c (skipSt a r w) = some (.ret (.err k), skipSt a r' w) := by
  simp only [skipRound, skipSt]
  have : 0 < a := by omega
  rtrun [this, hD, io_fillBuf, h, Except.mapError, ofDevice]

theorem skipRound_some (hD : c.device = io) {a : Nat} (ha : a ≠ 0) (hb : a < 2 ^ c.target.bits) {r r' : Reader} {b : Bytes}
    (h : r.fillBuf = (.ok b, r')) :
    skipRound c (skipSt a r w) = some (.val .unit, skipSt (a - min b.length a) (r'.consume (min b.length a)) w) := by
  simp only [skipRound, skipSt]
  have h1 : 0 < a := by omega
  have h2 : ¬ a < min b.length a := by omega
  have h3 : (a + 2 ^ c.target.bits - min b.length a) % 2 ^ c.target.bits = a - min b.length a := by
    rw [show a + 2 ^ c.target.bits - min b.length a = (a - min b.length a) + 2 ^ c.target.bits by omega, Nat.add_mod_right]
    exact Nat.mod_eq_of_lt (by omega)
  generalize hn : min b.length a = n at *
  rtrun [h1, hD, io_fillBuf, io_consume, h, Except.mapError, ofDevice, hn, h2, h3]

theorem skip_hangs (hD : c.device = io) {a : Nat} (ha : a ≠ 0) (hb : a < 2 ^ c.target.bits) {r : Reader}
    (h : r.fillBuf = (.ok [], r)) : (n : Nat) → RM.iterate (skipRound c) n (skipSt a r w) = none
  | 0 => rfl
  | n + 1 => by
    rw [iterate_succ, skipRound_some hD ha hb h]
    simp only [List.length_nil, Nat.zero_min, Nat.sub_zero, consume_zero]
    exact skip_hangs hD ha hb h n

/-- The loop of `skip`. -/
theorem skip_loop (hD : c.device = io) : (fuel a : Nat) → (r : Reader) → a < 2 ^ c.target.bits →
    (∀ r', skipLoop fuel a r = (.error .hang, r') → ∀ n, RM.iterate (skipRound c) n (skipSt a r w) = none) ∧
    (∀ k r', skipLoop fuel a r = (.error (.io k), r') → ∃ a', ∀ n, fuel ≤ n →
      RM.iterate (skipRound c) n (skipSt a r w) = some (.ret (.err k), skipSt a' r' w)) ∧
    (∀ r', skipLoop fuel a r = (.ok (), r') → ∀ n, fuel ≤ n →
      RM.iterate (skipRound c) n (skipSt a r w) = some (.val .unit, skipSt 0 r' w))
  | 0, a, r, _ => by simp [skipLoop]
  | fuel + 1, a, r, hb => by
    rw [skipLoop]
    by_cases ha : a = 0
    · subst ha
      simp only [if_true]
      refine ⟨by simp, by simp, fun r' h n hn => ?_⟩
      obtain ⟨m, rfl⟩ : ∃ m, n = m + 1 := ⟨n - 1, by omega⟩
      simp only [Prod.mk.injEq, true_and] at h
      subst h
      rw [iterate_succ, skipRound_end]
    · simp only [if_neg ha]
      rcases h : r.fillBuf with ⟨k | _ | ⟨b, bs⟩, r1⟩
      · simp only
        refine ⟨by simp, fun k' r' h' => ⟨a, fun n hn => ?_⟩, by simp⟩
        obtain ⟨m, rfl⟩ : ∃ m, n = m + 1 := ⟨n - 1, by omega⟩
        rw [iterate_succ, skipRound_error hD ha h]
        simp only [Prod.mk.injEq, Except.error.injEq, IoErr.io.injEq] at h'
        rw [h'.1, h'.2]
      · simp only
        refine ⟨fun r' h' n => ?_, by simp, by simp⟩
        cases n with
        | zero => rfl
        | succ n =>
          rw [iterate_succ, skipRound_some hD ha hb h]
          simp only [List.length_nil, Nat.zero_min, Nat.sub_zero, consume_zero]
          exact skip_hangs hD ha hb (fillBuf_end r h) n
      · simp only
        obtain ⟨h1, h2, h3⟩ := skip_loop hD fuel (a - min (b :: bs).length a) (r1.consume (min (b :: bs).length a)) (by omega)
        have hr := skipRound_some (w := w) hD ha hb h
        refine ⟨fun r' h' n => ?_, fun k r' h' => ?_, fun r' h' n hn => ?_⟩
        · cases n with
          | zero => rfl
          | succ n =>
            rw [iterate_succ, hr]
            exact h1 r' h' n
        · obtain ⟨a', h''⟩ := h2 k r' h'
          refine ⟨a', fun n hn => ?_⟩
          obtain ⟨m, rfl⟩ : ∃ m, n = m + 1 := ⟨n - 1, by omega⟩
          rw [iterate_succ, hr]
          exact h'' m (by omega)
        · obtain ⟨m, rfl⟩ : ∃ m, n = m + 1 := ⟨n - 1, by omega⟩
          rw [iterate_succ, hr]
          exact h3 r' h' m (by omega)

theorem eval_skip (c : RCtx σ) : RFn.skip.body.eval c = (RM.iterate (skipRound c) c.fuel).bind fun _ => .done (.val (.ok .unit)) := rfl

theorem diverges_skip (t : Target) (a : Nat) (ha : a < 2 ^ t.bits) (r r' : Reader) (w : Writer) (h : skipR a r = (.error .hang, r')) :
    Diverges t io .skip [.reader, .usize a] (r, w) := by
  intro n env
  cases n with
  | zero => rfl
  | succ n =>
    have := (skip_loop (c := ⟨t, io, callR t io n, n⟩) (w := w) rfl _ a r ha).1 r' h n
    simp only [skipSt] at this
    simp only [callR, RFn.params, eval_skip, List.zip_cons_cons, List.zip_nil_right, List.length_cons, List.length_nil, if_true,
      RM.bind, this, Option.map_none]

/-- `skip` ends unless the model hangs. -/
theorem skipR_cases (a : Nat) (r : Reader) : (∃ r', skipR a r = (.error .hang, r')) ∨ (∃ k r', skipR a r = (.error (.io k), r')) ∨
    (∃ r', skipR a r = (.ok (), r')) := by
  obtain ⟨t, ht⟩ := exists_rep r
  rcases skipLoop_sim (r.calls + 1) a r (by omega) ht with ⟨k, r', _, h⟩ | ⟨r', _, h⟩ | ⟨r', _, h, _⟩
  · exact .inr (.inl ⟨k, r', h⟩)
  · exact .inl ⟨r', h⟩
  · exact .inr (.inr ⟨r', h⟩)

theorem runs_skip (t : Target) (a : Nat) (ha : a < 2 ^ t.bits) (r : Reader) (w : Writer) (h : (skipR a r).1 ≠ .error .hang) :
    Runs t io .skip [.reader, .usize a] (r, w) (ofDevice (fun _ => .unit) (skipR a r).1) ((skipR a r).2, w) := by
  rcases skipR_cases a r with ⟨r', e⟩ | ⟨k, r', e⟩ | ⟨r', e⟩
  · exact absurd (congrArg Prod.fst e) h
  · refine runs_succ (r.calls + 1) fun n hn env => ?_
    obtain ⟨a', this⟩ := (skip_loop (c := ⟨t, io, callR t io n, n⟩) (w := w) rfl _ a r ha).2.1 k r' e
    have := this n hn
    simp only [skipSt] at this
    simp only [callR, RFn.params, eval_skip, List.zip_cons_cons, List.zip_nil_right, List.length_cons, List.length_nil, if_true,
      RM.bind, this, Option.map_some, e]
    rfl
  · refine runs_succ (r.calls + 1) fun n hn env => ?_
    have := (skip_loop (c := ⟨t, io, callR t io n, n⟩) (w := w) rfl _ a r ha).2.2 r' e n hn
    simp only [skipSt] at this
    simp only [callR, RFn.params, eval_skip, List.zip_cons_cons, List.zip_nil_right, List.length_cons, List.length_nil, if_true,
      RM.bind, this, Option.map_some, e]
    rfl

/-- One round of `finish`. -/
def finishRound (c : RCtx σ) : RM σ := (REx.letIn false .buffer (.try_ (.fillBuf false)) <|
      .blank <|
      .ifThen (.isEmpty .buffer) (.seq (.return_ (.ok .unit)) .done) <|
      .blank <|
      .letIn false .bufferSize (.len .buffer) <|
      .seq (.consume (.var .bufferSize)) .done).eval c

/-- The state between two rounds. -/
def finishSt (r : Reader) (w : Writer) : RSt (Reader × Writer) := ⟨[(.reader, .reader)], (r, w)⟩

theorem finish_loop (hD : c.device = io) : (fuel : Nat) → (r : Reader) →
    (∀ k r', finishLoop fuel r = (.error (.io k), r') → ∀ n, fuel ≤ n →
      RM.iterate (finishRound c) n (finishSt r w) = some (.ret (.err k), finishSt r' w)) ∧
    (∀ r', finishLoop fuel r = (.ok (), r') → ∀ n, fuel ≤ n →
      RM.iterate (finishRound c) n (finishSt r w) = some (.ret (.ok .unit), finishSt r' w))
  | 0, r => by simp [finishLoop]
  | fuel + 1, r => by
    rw [finishLoop]
    rcases h : r.fillBuf with ⟨k | _ | ⟨b, bs⟩, r1⟩
    · have hr : finishRound c (finishSt r w) = some (.ret (.err k), finishSt r1 w) := by
        simp only [finishRound, finishSt]
        rtrun [hD, io_fillBuf, h, Except.mapError, ofDevice]
      refine ⟨fun k' r' h' n hn => ?_, by simp⟩
      obtain ⟨m, rfl⟩ : ∃ m, n = m + 1 := ⟨n - 1, by omega⟩
      rw [iterate_succ, hr]
      simp only [Prod.mk.injEq, Except.error.injEq, IoErr.io.injEq] at h'
      rw [h'.1, h'.2]
    · have hr : finishRound c (finishSt r w) = some (.ret (.ok .unit), finishSt r1 w) := by
        simp only [finishRound, finishSt]
        rtrun [hD, io_fillBuf, h, Except.mapError, ofDevice]
      refine ⟨by simp, fun r' h' n hn => ?_⟩
      obtain ⟨m, rfl⟩ : ∃ m, n = m + 1 := ⟨n - 1, by omega⟩
      rw [iterate_succ, hr]
      simp only [Prod.mk.injEq, true_and] at h'
      rw [h']
    · have hr : finishRound c (finishSt r w) = some (.val .unit, finishSt (r1.consume (b :: bs).length) w) := by
        simp only [finishRound, finishSt]
        rtrun [hD, io_fillBuf, io_consume, h, Except.mapError, ofDevice]
      obtain ⟨h1, h2⟩ := finish_loop hD fuel (r1.consume (b :: bs).length)
      refine ⟨fun k r' h' n hn => ?_, fun r' h' n hn => ?_⟩
      · obtain ⟨m, rfl⟩ : ∃ m, n = m + 1 := ⟨n - 1, by omega⟩
        rw [iterate_succ, hr]
        exact h1 k r' h' m (by omega)
      · obtain ⟨m, rfl⟩ : ∃ m, n = m + 1 := ⟨n - 1, by omega⟩
        rw [iterate_succ, hr]
        exact h2 r' h' m (by omega)

theorem eval_finish (c : RCtx σ) : RFn.finish.body.eval c = RM.iterate (finishRound c) c.fuel := rfl

theorem runs_finish (t : Target) (r : Reader) (w : Writer) :
    Runs t io .finish [.reader] (r, w) (ofDevice (fun _ => .unit) (finishR r).1) ((finishR r).2, w) := by
  obtain ⟨s, hs⟩ := exists_rep r
  refine runs_succ (r.calls + 1) fun n hn env => ?_
  rcases finishLoop_sim (r.calls + 1) r (by omega) hs with ⟨k, r', _, h⟩ | ⟨r', h, _⟩
  · have e : finishR r = (.error (.io k), r') := h
    have := (finish_loop (c := ⟨t, io, callR t io n, n⟩) (w := w) rfl _ r).1 k r' h n hn
    simp only [finishSt] at this
    simp only [callR, RFn.params, eval_finish, List.zip_cons_cons, List.zip_nil_right, List.length_cons, List.length_nil, if_true,
      this, Option.map_some, e]
    rfl
  · have e : finishR r = (.ok (), r') := h
    have := (finish_loop (c := ⟨t, io, callR t io n, n⟩) (w := w) rfl _ r).2 r' h n hn
    simp only [finishSt] at this
    simp only [callR, RFn.params, eval_finish, List.zip_cons_cons, List.zip_nil_right, List.length_cons, List.length_nil, if_true,
      this, Option.map_some, e]
    rfl

end Typical.Gen.Rt

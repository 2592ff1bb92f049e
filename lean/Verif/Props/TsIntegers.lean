import Verif.Props.Header
import Verif.Props.TsStack

/-!
# C79: integers which are out of range, in generated TypeScript code

The generated types have `bigint` for `U64` and `S64` (`/repo/README.md` line 493), so that programs with integers out of the range pass the type checker. What the
generated code does with them, for `struct counter { x: U64 = 0 }` and `struct counter { x: S64 = 0 }`.
-/

namespace Typical

open TsGen

/-- `struct counter { x: t = 0 }` -/
def counterDecl (t : TypeVariant) : Declaration := ⟨⟨0, 0⟩, [], .struct, ident "counter", [exampleField "x" .required t 0], []⟩

def counterMain (t : TypeVariant) : Schema := ⟨[], [], [counterDecl t]⟩

def counterSchemas (t : TypeVariant) : Schemas := [(⟨[ident "main"]⟩, counterMain t)]

theorem counterSchemas_accepted {t : TypeVariant} (ht : t = .u64 ∨ t = .s64) : TsAccepted asciiTable (counterSchemas t) := by
  rcases ht with rfl | rfl
  · exact C72_names asciiTable_ascii _ (by constructor <;> decide +kernel) (by decide +kernel) (clearSchemas_spec (by decide +kernel))
  · exact C72_names asciiTable_ascii _ (by constructor <;> decide +kernel) (by decide +kernel) (clearSchemas_spec (by decide +kernel))

theorem counterSchemas_declares (t : TypeVariant) : (counterSchemas t).Declares (["main".toList], "counter".toList) ⟨[ident "main"]⟩ (counterMain t) (counterDecl t) :=
  have h : (["main".toList], "counter".toList) = ([(ident "main").snakeCase], (ident "counter").snakeCase) := by decide +kernel
  ⟨by simp [counterSchemas], by simp [counterMain], h⟩

abbrev counterPath (t : TypeVariant) : List Str := declPath asciiTable [ident "main"] (counterDecl t)

/-- `{ x: n }` -/
abbrev counter (n : Int) : Val := .obj [("x".toList, .big n)]

/-- The number which is written for an integer. -/
def codeOf (t : TypeVariant) (n : Int) : Int := if t = .s64 then Ts.zigzagEncode n else n

section
variable {t : TypeVariant} (ht : t = .u64 ∨ t = .s64) {n : Int} {z : Nat} (hz : codeOf t n = z) (hz' : 567382630219904 ≤ z) (F : Nat) (hF : 30 ≤ F)
include ht hz hz' hF

theorem counter_atlas (s : St) :
    callFn (program asciiTable (counterSchemas t)) F (.decl (counterPath t) .atlas) [counter n] s =
      some (.val (.obj [("$size".toList, .num (9 : Nat)), ("x".toList, .num (8 : Nat))]), s) := by
  obtain ⟨ns', hR⟩ := (counterSchemas_accepted ht).implements _ _ _ _ (counterSchemas_declares t)
  have hc := hR.clear
  obtain ⟨F, rfl⟩ : ∃ q, F = q + 1 := ⟨F - 1, by omega⟩
  refine (run_done _ _).symm.trans ?_
  have hb : (declCode asciiTable (counterMain t) ns' (counterDecl t)).body .atlas =
    structAtlas asciiTable (counterMain t) ns' [exampleField "x" .required t 0] := rfl
  rw [callFn_decl hR.code, hb]
  have hx : tsCamel asciiTable (ident "x") = "x".toList := by decide +kernel
  obtain ⟨env, h, sc⟩ := s
  have hne : z ≠ 0 := by omega
  have hlt : ¬ z < 567382630219904 := by omega
  have hh := fun (z : Nat) (s : St) (κ : Out → St → Option (Out × St)) => run_eq (callFn_fieldHeaderSize hc.top (n := F) (by omega) 0 z true s) κ
  have h8 : Ts.fieldHeaderSize 0 8 true = 1 := by decide
  have hmem := fun (s : St) (κ : Out → St → Option (Out × St)) => run_member (κ := κ) (show member "x".toList [("x".toList, Val.big n)] = some (.big n) from rfl) s
  simp only [structAtlas, declareLocals, exampleField, List.isEmpty_cons, List.flatMap_cons, List.flatMap_nil, List.append_nil, structFieldAtlas, Stms.ofList,
    Bool.false_eq_true, if_false, List.map_cons, List.map_nil, local_, hx, messageField, atlasLookup, headerSize, localInits]
  rcases ht with rfl | rfl
  · replace hz : n = z := hz
    subst hz
    simp only [atlasCalculation, atlasU64, if_true, atlasInteger, integerEncoded]
    tsrun [hc.runtime, Fn.params, hne, hlt, hh, h8, hmem]
  · replace hz : Ts.zigzagEncode n = z := hz
    have hzz := fun (s : St) (κ : Out → St → Option (Out × St)) => run_eq (callFn_zigzagEncode (program asciiTable (counterSchemas .s64)) (n := F) (by omega) n s) κ
    rw [hz] at hzz
    simp only [atlasCalculation, atlasU64, if_true, atlasInteger, integerEncoded]
    tsrun [hc.runtime, Fn.params, hne, hlt, hh, h8, hmem, hzz]

theorem counter_ser {r : Nat} {h : List Obj} (hr : h[r]? = some (.buf (List.replicate 9 0))) (env : Env) (sc : Nat → UInt8) :
    callFn (program asciiTable (counterSchemas t)) F (.decl (counterPath t) .serializeWithAtlasUnsafe) [.view r 0 9, .num (0 : Nat), counter n,
        .obj [("$size".toList, .num (9 : Nat)), ("x".toList, .num (8 : Nat))]] ⟨env, h, sc⟩ =
      some (.val (.num (9 : Nat)), ⟨env, h.set r (.buf (3 :: leBytes 8 z)), sc⟩) := by
  obtain ⟨ns', hR⟩ := (counterSchemas_accepted ht).implements _ _ _ _ (counterSchemas_declares t)
  have hc := hR.clear
  obtain ⟨F, rfl⟩ : ∃ q, F = q + 1 := ⟨F - 1, by omega⟩
  refine (run_done _ _).symm.trans ?_
  have hb : (declCode asciiTable (counterMain t) ns' (counterDecl t)).body .serializeWithAtlasUnsafe =
    structSerialize asciiTable (counterMain t) ns' [exampleField "x" .required t 0] := rfl
  rw [callFn_decl hR.code, hb]
  have hx : tsCamel asciiTable (ident "x") = "x".toList := by decide +kernel
  have hr' : r < h.length := by rw [List.getElem?_eq_some_iff] at hr; exact hr.1
  have hgt : 567382630219903 < z := by omega
  have h8 : Ts.serializeFieldHeader 0 8 true = [3] := by decide
  have hh := fun (env : Env) (κ : Out → St → Option (Out × St)) => run_eq (callFn_serializeFieldHeader (off := 0) (env := env) (sc := sc) hc.top (n := F) (by omega) 0 8 true hr
    (show 9 = _ by decide) (by rw [h8]; decide)) κ
  rw [h8] at hh
  have hmem := fun (s : St) (κ : Out → St → Option (Out × St)) => run_member (κ := κ) (show member "x".toList [("x".toList, Val.big n)] = some (.big n) from rfl) s
  have hmem' := fun (s : St) (κ : Out → St → Option (Out × St)) => run_member (κ := κ)
    (show member "x".toList [("$size".toList, .num (9 : Nat)), ("x".toList, .num (8 : Nat))] = some (.num (8 : Nat)) from rfl) s
  have hset := fun (env : Env) (κ : Out → St → Option (Out × St)) => run_setBigUint64 (off := 1) (len := 9) (get_set hr' (.buf (splice (List.replicate 9 0) 0 [3]))) z env sc κ (by omega)
  have hfin : splice (splice (List.replicate 9 0) 0 [3]) 1 (leBytes 8 z) = 3 :: leBytes 8 z := by
    rw [show (1 : Nat) = 0 + 1 from rfl, splice_at (k := 1) (x := [3]) (Nat.zero_le _) rfl, splice]
    simp [leBytes_length]
  simp only [structSerialize, exampleField, List.flatMap_cons, List.flatMap_nil, List.append_nil, structFieldSerialize, Stms.ofList,
    hx, messageField, atlasLookup, writeHeader]
  rcases ht with rfl | rfl
  · replace hz : n = z := hz
    subst hz
    simp only [serialization, varintBlock, u64Serialization, if_true, integerEncoded]
    tsrun [hc.runtime, Fn.params, hgt, hh, hmem, hmem', hset, List.set_set, hfin]
  · replace hz : Ts.zigzagEncode n = z := hz
    have hzz := fun (s : St) (κ : Out → St → Option (Out × St)) => run_eq (callFn_zigzagEncode (program asciiTable (counterSchemas .s64)) (n := F) (by omega) n s) κ
    rw [hz] at hzz
    simp only [serialization, varintBlock, u64Serialization, if_true, integerEncoded]
    tsrun [hc.runtime, Fn.params, hgt, hh, hmem, hmem', hset, List.set_set, hfin, hzz]

end

/-! ### Negative numbers -/

theorem u8_congr {a b : Nat} (h : a % 256 = b % 256) : UInt8.ofNat a = UInt8.ofNat b := by
  rw [UInt8.ofNat_eq_iff_mod_eq_toNat, UInt8.toNat_ofNat']
  exact h

theorem or_one_toInt (n : Int) : (BitVec.ofInt 32 (n * 2) ||| BitVec.ofInt 32 (1 : Nat)).toInt % 256 = 2 * (n % 128) + 1 := by
  have e : (BitVec.ofInt 32 (n * 2) ||| BitVec.ofInt 32 (1 : Nat)).toNat = ((n * 2) % 4294967296).toNat + 1 := by
    rw [BitVec.toNat_or, BitVec.toNat_ofInt, BitVec.toNat_ofInt]
    have : ((n * 2) % ((2 ^ 32 : Nat) : Int)).toNat = (((n * 2) % 4294967296).toNat / 2) <<< 1 := by
      rw [Nat.shiftLeft_eq]; omega
    rw [this, show (((1 : Nat) : Int) % ((2 ^ 32 : Nat) : Int)).toNat = 1 from rfl, ← Nat.shiftLeft_add_eq_or_of_lt (by decide), Nat.shiftLeft_eq]
    omega
  rw [BitVec.toInt_eq_toNat_cond, e]
  split <;> omega

theorem neg_byte (n : Int) : leBytes 1 (wrap 8 (BitVec.ofInt 32 (n * 2) ||| BitVec.ofInt 32 (1 : Nat)).toInt) = [UInt8.ofNat (2 * (n % 128).toNat + 1)] := by
  have h := or_one_toInt n
  generalize (BitVec.ofInt 32 (n * 2) ||| BitVec.ofInt 32 (1 : Nat)).toInt = x at h
  simp only [leBytes, Ts.u8, List.cons.injEq, and_true]
  refine u8_congr ?_
  unfold wrap
  split <;> omega

section
variable {n : Int} (hn : n < 0) (F : Nat) (hF : 16 ≤ F)
include hn hF

theorem callFn_varintSizeFromValue_neg (P : Prog) (s : St) :
    callFn P F (.runtime .varintSizeFromValue) [.big n] s = some (.val (.num (1 : Nat)), s) := by
  rw [callFn_runtime_run P (by omega)]
  obtain ⟨env, hp, sc⟩ := s
  have e : n < ((128 : Nat) : Int) := by omega
  tsrun [RuntimeFn.body, RuntimeFn.params, e]

theorem callFn_serializeVarint_neg (hn' : -4503599627370496 ≤ n) {P : Prog} (hc : P.Clear []) {r len off : Nat} {b : Bytes} {env : Env} {h : List Obj} {sc : Nat → UInt8}
    (hr : h[r]? = some (.buf b)) (hl : len = b.length) (ho : off + 1 ≤ len) :
    callFn P F (.runtime .serializeVarint) [.view r 0 len, .num off, .big n] ⟨env, h, sc⟩ =
      some (.val (.num (off + 1 : Nat)), ⟨env, h.set r (.buf (splice b off [UInt8.ofNat (2 * (n % 128).toNat + 1)])), sc⟩) := by
  rw [callFn_runtime_run P (by omega)]
  have e : n < ((128 : Nat) : Int) := by omega
  have e1 : BinOp.run .shl (.big n) (.big (1 : Nat)) = some (.big (n * 2)) := rfl
  have e2 : BinOp.run .bor (.num (n * 2)) (.num (1 : Nat)) = some (.num (BitVec.ofInt 32 (n * 2) ||| BitVec.ofInt 32 (1 : Nat)).toInt) := by
    have h1 : small (n * 2) = false := by unfold small; simp; omega
    have h2 : exact (n * 2) = true := by unfold exact; simp; omega
    have h3 : exact ((1 : Nat) : Int) = true := by decide
    simp only [BinOp.run]
    rw [if_neg (by rw [h1]; simp), if_pos ⟨h2, h3⟩]
  have e3 : ∀ x : Int, run (Method.run .setUint8 (.view r 0 len) [.num off, .num x]) = run (writeView r 0 len off (leBytes 1 (wrap 8 x))) := fun _ => rfl
  have e4 : leBytes 1 (wrap 8 (BitVec.ofInt 32 (n * 2) ||| BitVec.ofInt 32 (1 : Nat)).toInt) = [UInt8.ofNat (2 * (n % 128).toNat + 1)] := by
    exact neg_byte n
  tsrun [RuntimeFn.body, RuntimeFn.params, e, e1, e2, hc.root, e3, e4]
  erw [run_writeView hr (by simpa using ho)]
  tsrun
  
omit hF in
theorem counter_atlas_neg (hF : 30 ≤ F) (s : St) :
    callFn (program asciiTable (counterSchemas .u64)) F (.decl (counterPath .u64) .atlas) [counter n] s =
      some (.val (.obj [("$size".toList, .num (2 : Nat)), ("x".toList, .num (1 : Nat))]), s) := by
  obtain ⟨ns', hR⟩ := (counterSchemas_accepted (.inl rfl)).implements _ _ _ _ (counterSchemas_declares .u64)
  have hc := hR.clear
  obtain ⟨F, rfl⟩ : ∃ q, F = q + 1 := ⟨F - 1, by omega⟩
  refine (run_done _ _).symm.trans ?_
  have hb : (declCode asciiTable (counterMain .u64) ns' (counterDecl .u64)).body .atlas =
    structAtlas asciiTable (counterMain .u64) ns' [exampleField "x" .required .u64 0] := rfl
  rw [callFn_decl hR.code, hb]
  have hx : tsCamel asciiTable (ident "x") = "x".toList := by decide +kernel
  obtain ⟨env, h, sc⟩ := s
  have hne : n ≠ ((0 : Nat) : Int) := by omega
  have hlt : n < ((567382630219904 : Nat) : Int) := by omega
  have hv := fun (s : St) (κ : Out → St → Option (Out × St)) => run_eq (callFn_varintSizeFromValue_neg hn F (by omega) (program asciiTable (counterSchemas .u64)) s) κ
  have hh := fun (z : Nat) (s : St) (κ : Out → St → Option (Out × St)) => run_eq (callFn_fieldHeaderSize hc.top (n := F) (by omega) 0 z true s) κ
  have h8 : Ts.fieldHeaderSize 0 1 true = 1 := by decide
  have hmem := fun (s : St) (κ : Out → St → Option (Out × St)) => run_member (κ := κ) (show member "x".toList [("x".toList, Val.big n)] = some (.big n) from rfl) s
  simp only [structAtlas, declareLocals, exampleField, List.isEmpty_cons, List.flatMap_cons, List.flatMap_nil, List.append_nil, structFieldAtlas, Stms.ofList,
    Bool.false_eq_true, if_false, List.map_cons, List.map_nil, local_, hx, messageField, atlasLookup, headerSize, localInits]
  simp only [atlasCalculation, atlasU64, if_true, atlasInteger, integerEncoded]
  tsrun [hc.runtime, Fn.params, hne, hlt, hh, h8, hmem, hv]

omit hF in
theorem counter_ser_neg (hF : 30 ≤ F) (hn' : -4503599627370496 ≤ n) {r : Nat} {h : List Obj} (hr : h[r]? = some (.buf (List.replicate 2 0))) (env : Env) (sc : Nat → UInt8) :
    callFn (program asciiTable (counterSchemas .u64)) F (.decl (counterPath .u64) .serializeWithAtlasUnsafe) [.view r 0 2, .num (0 : Nat), counter n,
        .obj [("$size".toList, .num (2 : Nat)), ("x".toList, .num (1 : Nat))]] ⟨env, h, sc⟩ =
      some (.val (.num (2 : Nat)), ⟨env, h.set r (.buf [5, UInt8.ofNat (2 * (n % 128).toNat + 1)]), sc⟩) := by
  obtain ⟨ns', hR⟩ := (counterSchemas_accepted (.inl rfl)).implements _ _ _ _ (counterSchemas_declares .u64)
  have hc := hR.clear
  obtain ⟨F, rfl⟩ : ∃ q, F = q + 1 := ⟨F - 1, by omega⟩
  refine (run_done _ _).symm.trans ?_
  have hb : (declCode asciiTable (counterMain .u64) ns' (counterDecl .u64)).body .serializeWithAtlasUnsafe =
    structSerialize asciiTable (counterMain .u64) ns' [exampleField "x" .required .u64 0] := rfl
  rw [callFn_decl hR.code, hb]
  have hx : tsCamel asciiTable (ident "x") = "x".toList := by decide +kernel
  have hr' : r < h.length := by rw [List.getElem?_eq_some_iff] at hr; exact hr.1
  have hgt : ¬ n > ((567382630219903 : Nat) : Int) := by omega
  have hne : n ≠ ((0 : Nat) : Int) := by omega
  have h8 : Ts.serializeFieldHeader 0 1 true = [5] := by decide
  have hh := fun (env : Env) (κ : Out → St → Option (Out × St)) => run_eq (callFn_serializeFieldHeader (off := 0) (env := env) (sc := sc) hc.top (n := F) (by omega) 0 1 true hr
    (show 2 = _ by decide) (by rw [h8]; decide)) κ
  rw [h8] at hh
  have hmem := fun (s : St) (κ : Out → St → Option (Out × St)) => run_member (κ := κ) (show member "x".toList [("x".toList, Val.big n)] = some (.big n) from rfl) s
  have hmem' := fun (s : St) (κ : Out → St → Option (Out × St)) => run_member (κ := κ)
    (show member "x".toList [("$size".toList, .num (2 : Nat)), ("x".toList, .num (1 : Nat))] = some (.num (1 : Nat)) from rfl) s
  have hset := fun (env : Env) (κ : Out → St → Option (Out × St)) => run_eq (callFn_serializeVarint_neg (off := 1) (len := 2) (env := env) (sc := sc) hn F (by omega) hn' hc.top
    (get_set hr' (.buf (splice (List.replicate 2 0) 0 [5]))) (by decide) (by omega)) κ
  have hfin : ∀ y, splice (splice (List.replicate 2 0) 0 [5]) 1 [y] = [5, y] := fun y => rfl
  simp only [structSerialize, exampleField, List.flatMap_cons, List.flatMap_nil, List.append_nil, structFieldSerialize, Stms.ofList,
    hx, messageField, atlasLookup, writeHeader]
  simp only [serialization, varintBlock, u64Serialization, if_true, integerEncoded]
  tsrun [hc.runtime, Fn.params, hgt, hne, hh, hmem, hmem', hset, List.set_set, hfin]

end

/-- `serialize`, from the two functions which it calls. -/
theorem counter_serialize {t : TypeVariant} (ht : t = .u64 ∨ t = .s64) {n : Int} {size p : Nat} {b : Bytes}
    (ha : ∀ F, 30 ≤ F → ∀ s, callFn (program asciiTable (counterSchemas t)) F (.decl (counterPath t) .atlas) [counter n] s =
      some (.val (.obj [("$size".toList, .num size), ("x".toList, .num p)]), s))
    (hb : ∀ F, 30 ≤ F → ∀ r h, h[r]? = some (.buf (List.replicate size 0)) → ∀ env sc,
      callFn (program asciiTable (counterSchemas t)) F (.decl (counterPath t) .serializeWithAtlasUnsafe) [.view r 0 size, .num (0 : Nat), counter n,
        .obj [("$size".toList, .num size), ("x".toList, .num p)]] ⟨env, h, sc⟩ = some (.val (.num size), ⟨env, h.set r (.buf b), sc⟩))
    (h : List Obj) (sc : Nat → UInt8) :
    Calls (program asciiTable (counterSchemas t)) ["Main".toList, "Counter".toList] .serialize [counter n] h sc (.val (.buf h.length)) (h ++ [.buf b]) sc := by
  have hpath : counterPath t = ["Main".toList, "Counter".toList] := by rcases ht with rfl | rfl <;> decide +kernel
  rw [← hpath]
  obtain ⟨ns', hR⟩ := (counterSchemas_accepted ht).implements _ _ _ _ (counterSchemas_declares t)
  have hc := hR.clear
  refine ⟨40, fun F hF => ?_⟩
  obtain ⟨F, rfl⟩ : ∃ q, F = q + 1 := ⟨F - 1, by omega⟩
  refine (run_done _ _).symm.trans ?_
  have hbd : (declCode asciiTable (counterMain t) ns' (counterDecl t)).body .serialize = serializeFunction .struct [exampleField "x" .required t 0] := rfl
  have ha := fun (s : St) (κ : Out → St → Option (Out × St)) => run_eq (ha F (by omega) s) κ
  have hg : (h ++ [Obj.buf (List.replicate size 0)])[h.length]? = some (.buf (List.replicate size 0)) := by simp
  have hb := fun (env : Env) (κ : Out → St → Option (Out × St)) => run_eq (hb F (by omega) _ _ hg env sc) κ
  have hs := fun (s : St) (κ : Out → St → Option (Out × St)) => run_member (κ := κ)
    (show member "$size".toList [("$size".toList, Val.num size), ("x".toList, .num p)] = some (.num size) from rfl) s
  rw [callFn_decl hR.code, hbd]
  simp only [serializeFunction]
  rw [if_neg (by simp)]
  tsrun [Fn.params, Ex.size]
  rw [if_neg (by simp [hides_eq])]
  tsrun [ha, hs, hc.root, run_newBuffer, run_newDataView hg]
  rw [if_neg (by simp [hides_eq])]
  tsrun [List.length_replicate, hb]
  simp

/-- `struct { x: u64 = 0 }`, `struct { x: s64 = 0 }` -/
abbrev counterType (s : Scalar) : CTy := .struct (.cons 0 .required (.scalar s) .nil)

theorem counter_reads8 (b0 b1 b2 b3 b4 b5 b6 b7 : UInt8) :
    Ts.deserializeView (counterType .u64) (Ts.part [] [3, b0, b1, b2, b3, b4, b5, b6, b7] []) = .ok (UInt64.ofNat (Ts.leValue [b0, b1, b2, b3, b4, b5, b6, b7]), ()) := by
  rfl

theorem counter_reads8s (b0 b1 b2 b3 b4 b5 b6 b7 : UInt8) :
    Ts.deserializeView (counterType .s64) (Ts.part [] [3, b0, b1, b2, b3, b4, b5, b6, b7] []) =
      .ok (Int64.ofInt (Ts.zigzagDecode (Ts.leValue [b0, b1, b2, b3, b4, b5, b6, b7])), ()) := by
  rfl

/-- The first member of the result. -/
def counterValue (r : Except Ts.Err (UInt64 × Unit)) : Option UInt64 :=
  match r with
  | .ok m => some m.1
  | .error _ => none

theorem counter_reads1 (k : Nat) (hk : k < 128) :
    Ts.deserializeView (counterType .u64) (Ts.part [] [5, UInt8.ofNat (2 * k + 1)] []) = .ok (UInt64.ofNat k, ()) := by
  have : ∀ k < 128, counterValue (Ts.deserializeView (counterType .u64) (Ts.part [] [5, UInt8.ofNat (2 * k + 1)] [])) = some (UInt64.ofNat k) := by decide +kernel
  replace this := this k hk
  revert this
  generalize Ts.deserializeView (counterType .u64) (Ts.part [] [5, UInt8.ofNat (2 * k + 1)] []) = r
  intro h
  match r, h with
  | .ok (a, ()), h => cases h; rfl

theorem leValue_leBytes : (k z : Nat) → Ts.leValue (leBytes k z) = z % 256 ^ k
  | 0, z => by simp [leBytes, Ts.leValue, Nat.mod_one]
  | k + 1, z => by
    rw [leBytes, Ts.leValue, leValue_leBytes k, Ts.u8, UInt8.toNat_ofNat', Nat.shiftRight_eq_div_pow, show 256 ^ (k + 1) = 256 * 256 ^ k from Nat.pow_succ', Nat.mod_mul]

theorem counterSchemas_denotes {t : TypeVariant} {s : Scalar} (ht : t = .u64 ∧ s = .u64 ∨ t = .s64 ∧ s = .s64) :
    (counterSchemas t).Denotes (["main".toList], "counter".toList) (counterType s) := by
  rcases ht with ⟨rfl, rfl⟩ | ⟨rfl, rfl⟩
  · exact .struct (counterSchemas_declares _) rfl (.cons .u64 .nil)
  · exact .struct (counterSchemas_declares _) rfl (.cons .s64 .nil)

/-- Objects with this content. -/
theorem counter_unique {t : TypeVariant} {s : Scalar} (ht : t = .u64 ∧ s = .u64 ∨ t = .s64 ∧ s = .s64) {H : Nat → Option Obj} {y : Val} {x : s.Val}
    (hy : JsHolds asciiTable (counterSchemas t) .inn H (["main".toList], "counter".toList) y (.fields [(0, .scalar s x)])) : y = .obj [("x".toList, jsScalar s x)] := by
  have hdecl : ∀ {ns s' d}, (counterSchemas t).Declares (["main".toList], "counter".toList) ns s' d → d = counterDecl t := by
    intro ns s' d h
    obtain ⟨h1, h2, -⟩ := h
    cases List.mem_singleton.mp h1
    exact List.mem_singleton.mp h2
  generalize htr : Tree.fields [(0, .scalar s x)] = tr at hy
  cases hy with
  | last h1 h2 => cases hdecl h1; cases h2
  | more h1 h2 => cases hdecl h1; cases h2
  | @struct _ ns s' d o l h1 h2 h3 h4 =>
    cases hdecl h1
    cases htr
    have hx : tsCamel asciiTable (ident "x") = "x".toList := by decide +kernel
    replace h3 : o.map (·.1) = [tsCamel asciiTable (ident "x")] := h3 rfl
    rw [hx] at h3
    replace h4 : JsMembers asciiTable (counterSchemas t) .inn _ ns s' [exampleField "x" .required t 0] o _ := h4
    generalize hl : [(0, Tree.scalar s x)] = l at h4
    cases h4 with
    | absent e1 e2 => cases e2
    | @present _ _ _ _ w tr _ l e1 e2 e3 =>
    cases e3
    obtain ⟨-, rfl⟩ : _ ∧ Tree.scalar s x = tr := by
      have := List.cons.inj hl
      simpa using this.1
    match o, h3 with
    | [(a, w')], h3 =>
      cases h3
      replace e1 : member (tsCamel asciiTable (ident "x")) [("x".toList, w')] = some w := e1
      rw [hx] at e1
      cases e1
      generalize htr : Tree.scalar s x = tr at e2
      replace e2 : JsType asciiTable (counterSchemas t) .inn _ ns s' t w tr := e2
      cases e2 with
      | scalar v h => cases htr; rfl
      | custom => rcases ht with ⟨h, -⟩ | ⟨h, -⟩ <;> cases h
      | _ => cases htr

/-- `deserialize`, from what the decoder of the wire type gives. -/
theorem counter_deserialize {t : TypeVariant} {s : Scalar} (ht : t = .u64 ∧ s = .u64 ∨ t = .s64 ∧ s = .s64) {b : Bytes} {x : s.Val}
    (hd : Ts.deserializeView (counterType s) (Ts.part [] b []) = .ok (x, ())) {h : List Obj} {r : Nat} (hr : h[r]? = some (.buf b)) (sc : Nat → UInt8) :
    ∃ h' sc', Calls (program asciiTable (counterSchemas t)) ["Main".toList, "Counter".toList] .deserialize [.buf r] h sc
      (.val (.obj [("x".toList, jsScalar s x)])) h' sc' := by
  have hA := counterSchemas_accepted (t := t) (by rcases ht with h | h <;> simp [h.1])
  have hpath : counterPath t = ["Main".toList, "Counter".toList] := by rcases ht with ⟨rfl, rfl⟩ | ⟨rfl, rfl⟩ <;> decide +kernel
  rw [← hpath]
  obtain ⟨y, h', sc', -, hy, hc⟩ := C73_accepts hA (counterSchemas_denotes ht) (counterSchemas_declares t) (.buffer hr) sc hd
  change JsHolds _ _ _ _ _ y (.fields [(0, .scalar s x)]) at hy
  cases counter_unique ht hy
  exact ⟨h', sc', hc⟩

/-- `serialize`, and then `deserialize`. -/
def ReadBack (t : TypeVariant) (n n' : Int) : Prop :=
  ∀ (h : List Obj) (sc : Nat → UInt8), ∃ r h1 sc1, Calls (program asciiTable (counterSchemas t)) ["Main".toList, "Counter".toList] .serialize [counter n] h sc (.val (.buf r)) h1 sc1 ∧
    ∃ h2 sc2, Calls (program asciiTable (counterSchemas t)) ["Main".toList, "Counter".toList] .deserialize [.buf r] h1 sc1 (.val (counter n')) h2 sc2

/-- Numbers in the range. -/
theorem counter_exact {t : TypeVariant} {s : Scalar} (ht : t = .u64 ∧ s = .u64 ∨ t = .s64 ∧ s = .s64) {n : Int} (x : s.Val) (hn : jsScalar s x = .big n) : ReadBack t n n := by
  intro h sc
  have hA := counterSchemas_accepted (t := t) (by rcases ht with h | h <;> simp [h.1])
  have hpath : counterPath t = ["Main".toList, "Counter".toList] := by rcases ht with ⟨rfl, rfl⟩ | ⟨rfl, rfl⟩ <;> decide +kernel
  have hx : tsCamel asciiTable (ident "x") = "x".toList := by decide +kernel
  have hv : JsHolds asciiTable (counterSchemas t) .out (fun r => h[r]?) (["main".toList], "counter".toList) (counter n) (.fields [(0, .scalar s x)]) := by
    refine .struct (counterSchemas_declares t) rfl (fun h => nomatch h) (.present (f := exampleField "x" .required t 0) (v := .big n) ?_ ?_ .nil)
    · change member (tsCamel asciiTable (ident "x")) _ = _
      rw [hx]; rfl
    · rw [← hn]
      exact .scalar x (by rcases ht with ⟨rfl, rfl⟩ | ⟨rfl, rfl⟩ <;> rfl)
  have hlen : ((Tree.fields [(0, .scalar s x)]).wire false).length < 2 ^ 64 := by
    have hv : ∀ k, (Spec.varintBytes k).length ≤ 9 := by
      intro k
      rw [Spec.varintBytes, List.length_map, spec_varint_length]
      exact (varintLength_range k).2
    have hi : ∀ k, (Spec.intField k).length ≤ 9 := by
      intro k
      unfold Spec.intField
      have h1 := hv k
      have h2 : (Spec.fixed64 k).length = 8 := rfl
      split_ifs
      · simp
      · omega
      · omega
    have hf : s ≠ .f64 := by rcases ht with ⟨-, rfl⟩ | ⟨-, rfl⟩ <;> decide
    have h1 := hi (Spec.scalarNat s x)
    simp only [Tree.wire, Tree.wireFields, Spec.field, Spec.header, if_true, Spec.scalarField, if_neg hf, List.length_append, List.length_nil]
    have h2 := hv (4 * 0 + Spec.sizeMode (Spec.intField (Spec.scalarNat s x)).length (Tree.scalar s x).isInteger)
    have h3 := hv (Spec.intField (Spec.scalarNat s x)).length
    split_ifs
    · omega
    · simp only [List.length_nil]; omega
  obtain ⟨-, h1, r, -, -, e1, e2⟩ := C72_serialize hA (counterSchemas_denotes ht) (counterSchemas_declares t) hv hlen sc
  obtain ⟨y, h3, sc3, -, hy, hc⟩ := C74_round_trip hA (counterSchemas_denotes ht) (counterSchemas_declares t) hv hlen (by simp [Tree.JsSafe, Tree.JsSafeFields]) e1 e2 (.buffer e1) sc
  change JsHolds _ _ _ _ _ y (.fields [(0, .scalar s x)]) at hy
  cases counter_unique ht hy
  rw [hn] at hc
  have hpath' : declPath asciiTable (⟨[ident "main"]⟩ : Namespace).components (counterDecl t) = ["Main".toList, "Counter".toList] := hpath
  rw [hpath'] at e2 hc
  exact ⟨r, h1, sc, e2, h3, sc3, hc⟩

theorem counter_back8 {t : TypeVariant} {s : Scalar} (ht : t = .u64 ∧ s = .u64 ∨ t = .s64 ∧ s = .s64) {n n' : Int} {z : Nat} (hz : codeOf t n = z) (hz' : 567382630219904 ≤ z)
    {x : s.Val} (hx : Ts.deserializeView (counterType s) (Ts.part [] (3 :: leBytes 8 z) []) = .ok (x, ())) (hn : jsScalar s x = .big n') : ReadBack t n n' := by
  have ht' : t = .u64 ∨ t = .s64 := by rcases ht with h | h <;> simp [h.1]
  intro h sc
  refine ⟨_, _, _, counter_serialize ht' (fun F hF s => counter_atlas ht' hz hz' F hF s) (fun F hF r h hr env sc => counter_ser ht' hz hz' F hF hr env sc) h sc, ?_⟩
  obtain ⟨h', sc', hd⟩ := counter_deserialize ht hx (h := h ++ [.buf (3 :: leBytes 8 z)]) (r := h.length) (by simp) sc
  rw [hn] at hd
  exact ⟨h', sc', hd⟩

/-- **C79, `U64`, too large.** -/
theorem C79_u64_large {n : Int} (hn : 18446744073709551616 ≤ n) : ReadBack .u64 n (n % 18446744073709551616) := by
  obtain ⟨z, rfl⟩ := Int.eq_ofNat_of_zero_le (a := n) (by omega)
  refine counter_back8 (s := .u64) (.inl ⟨rfl, rfl⟩) (z := z) rfl (by omega) (counter_reads8 _ _ _ _ _ _ _ _) ?_
  have := leValue_leBytes 8 z
  simp only [leBytes] at this
  rw [this]
  change Val.big (UInt64.ofNat _).toNat = _
  rw [UInt64.toNat_ofNat']
  congr 1
  omega

/-- **C79, `U64`, negative.** -/
theorem C79_u64_negative {n : Int} (hn : n < 0) (hn' : -4503599627370496 ≤ n) : ReadBack .u64 n (n % 128) := by
  intro h sc
  refine ⟨_, _, _, counter_serialize (.inl rfl) (fun F hF s => counter_atlas_neg hn F hF s) (fun F hF r h hr env sc => counter_ser_neg hn F hF hn' hr env sc) h sc, ?_⟩
  obtain ⟨h', sc', hd⟩ := counter_deserialize (t := .u64) (s := .u64) (.inl ⟨rfl, rfl⟩) (counter_reads1 (n % 128).toNat (by omega))
    (h := h ++ [.buf [5, UInt8.ofNat (2 * (n % 128).toNat + 1)]]) (r := h.length) (by simp) sc
  have : jsScalar .u64 (UInt64.ofNat (n % 128).toNat) = .big (n % 128) := by
    change Val.big (UInt64.ofNat _).toNat = _
    rw [UInt64.toNat_ofNat']
    congr 1
    omega
  rw [this] at hd
  exact ⟨h', sc', hd⟩

theorem zigzagEncode_eq (n : Int) : Ts.zigzagEncode n = if n < 0 then -1 - n * 2 else n * 2 := rfl

theorem zigzag_back {n : Int} {z : Nat} (hz : Ts.zigzagEncode n = z) :
    jsScalar .s64 (Int64.ofInt (Ts.zigzagDecode (Ts.leValue (leBytes 8 z)))) = .big (if 0 ≤ n then n % 9223372036854775808 else -1 - (-1 - n) % 9223372036854775808) := by
  rw [leValue_leBytes]
  change Val.big (Int64.ofInt _).toInt = _
  rw [zigzagEncode_eq] at hz
  congr 1
  rw [Int64.toInt_ofInt, Int.bmod_def]
  unfold Ts.zigzagDecode
  have : (256 : Nat) ^ 8 = 18446744073709551616 := by decide
  rw [this]
  simp only [Int64.size]
  split at hz <;> split <;> split <;> split <;> omega

/-- **C79, `S64`, too large.** -/
theorem C79_s64_large {n : Int} (hn : 9223372036854775808 ≤ n) : ReadBack .s64 n (n % 9223372036854775808) := by
  have hp : 0 ≤ Ts.zigzagEncode n := by rw [zigzagEncode_eq]; split <;> omega
  obtain ⟨z, hz⟩ := Int.eq_ofNat_of_zero_le hp
  refine counter_back8 (s := .s64) (.inr ⟨rfl, rfl⟩) (z := z) hz ?_ (counter_reads8s _ _ _ _ _ _ _ _) ?_
  · rw [zigzagEncode_eq] at hz
    split at hz <;> omega
  · have := zigzag_back hz
    simp only [leBytes] at this
    rw [this, if_pos (by omega)]

/-- **C79, `S64`, too small.** -/
theorem C79_s64_small {n : Int} (hn : n < -9223372036854775808) : ReadBack .s64 n (-1 - (-1 - n) % 9223372036854775808) := by
  have hp : 0 ≤ Ts.zigzagEncode n := by rw [zigzagEncode_eq]; split <;> omega
  obtain ⟨z, hz⟩ := Int.eq_ofNat_of_zero_le hp
  refine counter_back8 (s := .s64) (.inr ⟨rfl, rfl⟩) (z := z) hz ?_ (counter_reads8s _ _ _ _ _ _ _ _) ?_
  · rw [zigzagEncode_eq] at hz
    split at hz <;> omega
  · have := zigzag_back hz
    simp only [leBytes] at this
    rw [this, if_neg (by omega)]

theorem ReadBack.unique {t : TypeVariant} {n a b : Int} (ha : ReadBack t n a) (hb : ReadBack t n b) : a = b := by
  obtain ⟨r, h1, sc1, e1, h2, sc2, e2⟩ := ha [] (fun _ => 0)
  obtain ⟨r', h1', sc1', e1', h2', sc2', e2'⟩ := hb [] (fun _ => 0)
  obtain ⟨g1, rfl, rfl⟩ := C72_unique e1 e1'
  cases g1
  obtain ⟨g1, -, -⟩ := C72_unique e2 e2'
  cases g1
  rfl

/-- **C79, `U64`.** Every integer: `serialize` does not complain. What is read are its last 64 bits; if it is negative, only its last 7 bits. (If it is less than
`-2 ^ 52`, then the conversion to a number rounds it first; these numbers are not modelled.) -/
theorem C79_u64_partial {n : Int} (hn : -4503599627370496 ≤ n) : ReadBack .u64 n (if n < 0 then n % 128 else n % 18446744073709551616) := by
  split
  · next h => exact C79_u64_negative h hn
  · next h =>
    by_cases h' : n < 18446744073709551616
    · rw [Int.emod_eq_of_lt (by omega) h']
      refine counter_exact (s := .u64) (.inl ⟨rfl, rfl⟩) (UInt64.ofNat n.toNat) ?_
      change Val.big (UInt64.ofNat _).toNat = _
      rw [UInt64.toNat_ofNat']
      congr 1
      omega
    · exact C79_u64_large (by omega)

/-- **C79, `S64`.** Every integer: `serialize` does not complain. What is read has the same sign, but only 63 bits. -/
theorem C79_s64 (n : Int) : ReadBack .s64 n (if 0 ≤ n then n % 9223372036854775808 else -1 - (-1 - n) % 9223372036854775808) := by
  split
  · next h =>
    by_cases h' : n < 9223372036854775808
    · rw [Int.emod_eq_of_lt h h']
      refine counter_exact (s := .s64) (.inr ⟨rfl, rfl⟩) (Int64.ofInt n) ?_
      change Val.big (Int64.ofInt _).toInt = _
      rw [Int64.toInt_ofInt, Int.bmod_def]
      simp only [Int64.size]
      congr 1
      split <;> omega
    · exact C79_s64_large (by omega)
  · next h =>
    by_cases h' : n < -9223372036854775808
    · exact C79_s64_small h'
    · rw [Int.emod_eq_of_lt (by omega) (by omega), show -1 - (-1 - n) = n by omega]
      refine counter_exact (s := .s64) (.inr ⟨rfl, rfl⟩) (Int64.ofInt n) ?_
      change Val.big (Int64.ofInt _).toInt = _
      rw [Int64.toInt_ofInt, Int.bmod_def]
      simp only [Int64.size]
      congr 1
      split <;> omega

/-- **C79.** An integer is read back unchanged exactly if it is in the range of the type; every other one is changed without any error. So the property holds for the
integers in the range only. -/
theorem C79_unchanged_iff_partial {n : Int} :
    (-4503599627370496 ≤ n → (ReadBack .u64 n n ↔ 0 ≤ n ∧ n < 18446744073709551616)) ∧
    (ReadBack .s64 n n ↔ -9223372036854775808 ≤ n ∧ n < 9223372036854775808) := by
  refine ⟨fun h => ⟨fun hr => ?_, fun hr => ?_⟩, fun hr => ?_, fun hr => ?_⟩
  · have := hr.unique (C79_u64_partial h)
    split at this <;> omega
  · have := C79_u64_partial h
    rwa [if_neg (by omega), Int.emod_eq_of_lt hr.1 hr.2] at this
  · have := hr.unique (C79_s64 n)
    split at this <;> omega
  · have := C79_s64 n
    split at this
    · rwa [Int.emod_eq_of_lt (by omega) (by omega)] at this
    · rwa [Int.emod_eq_of_lt (by omega) (by omega), show -1 - (-1 - n) = n by omega] at this

/-! ### Examples -/

example : ReadBack .u64 (-1) 127 := C79_u64_negative (by decide) (by decide)
example : ReadBack .u64 18446744073709551616 0 := C79_u64_large (by decide)
example : ReadBack .s64 9223372036854775808 0 := C79_s64_large (by decide)
example : ReadBack .s64 (-9223372036854775809) (-1) := C79_s64_small (by decide)

end Typical

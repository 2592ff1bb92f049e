import Verif.Spec.TsTypes
import Verif.TsGen.PlainNames

/-!
# The types in generated TypeScript code

The definitions of types which `write_schema` writes, as trees: `write_struct`, `write_choice`, `write_type`, `write_custom_type` of
`/repo/src/generate_typescript.rs`. (`structText_eq` and `choiceText_eq`: they have the text which these functions write.)
-/

namespace Typical.TsGen

/-- `write_type`: lines 1558-1645. -/
def tyOf (T : CharTable) (s : Schema) (ns : Namespace) (x : NameSuffix) : TypeVariant → TsTy
  | .array _ t => if x = .atlas then if sized t then .sized (tyOf T s ns x t) else .number else .array (tyOf T s ns x t)
  | .bool => if x = .atlas then .number else .boolean
  | .bytes => if x = .atlas then .number else .arrayBuffer
  | .custom i n => .ref (namespacePath T s ns i) (tsPascal T n (some x))
  | .f64 => .number
  | .s64 => if x = .atlas then .number else .bigint true
  | .u64 => if x = .atlas then .number else .bigint false
  | .string => if x = .atlas then .uint8Array else .string
  | .unit => if x = .atlas then .number else .null

/-- The property of a struct: lines 1350-1370. -/
def memberTy (T : CharTable) (s : Schema) (ns : Namespace) (x : NameSuffix) (f : Field) : TsTy :=
  if memberOptional x f.rule then .orUndefined (tyOf T s ns x f.type.variant) else tyOf T s ns x f.type.variant

/-- The properties of an alternative of a choice: lines 1392-1432. -/
def variantProps (T : CharTable) (s : Schema) (ns : Namespace) (d : Declaration) (x : NameSuffix) (f : Field) : TsProps :=
  (match x with
    | .atlas => [("$size".toList, .number)]
    | .in_ => [("$field".toList, .literal (tsCamel T f.name))]
    | .out => []) ++
  [(tsCamel T f.name, tyOf T s ns x f.type.variant)] ++
  if variantFallback x f.rule then [("$fallback".toList, .ref [] (tsPascal T d.name (some x)))] else []

/-- The right-hand side of a definition: `write_struct`, `write_choice`, lines 1330-1455. -/
def declDef (T : CharTable) (s : Schema) (ns : Namespace) (d : Declaration) (x : NameSuffix) : TsDef :=
  match d.variant with
  | .struct => .object ((if x = .atlas then [("$size".toList, .number)] else []) ++ d.fields.map (fun f => (tsCamel T f.name, memberTy T s ns x f)))
  | .choice => .union (d.fields.map (variantProps T s ns d x) ++ if x = .in_ ∧ d.fields.length = 1 then [[("$field".toList, .never)]] else [])

/-! ### Text -/

theorem typeText_eq (T : CharTable) (s : Schema) (ns : Namespace) (x : NameSuffix) : (tv : TypeVariant) → typeText T s ns x tv = (tyOf T s ns x tv).text
  | .array _ t => by
    unfold typeText tyOf
    rw [typeText_eq T s ns x t]
    split
    · split <;> rfl
    · rfl
  | .custom _ _ => rfl
  | .f64 => rfl
  | .bool => by unfold typeText tyOf; split <;> rfl
  | .bytes => by unfold typeText tyOf; split <;> rfl
  | .s64 => by unfold typeText tyOf; split <;> rfl
  | .string => by unfold typeText tyOf; split <;> rfl
  | .u64 => by unfold typeText tyOf; split <;> rfl
  | .unit => by unfold typeText tyOf; split <;> rfl

theorem memberTy_text (T : CharTable) (s : Schema) (ns : Namespace) (x : NameSuffix) (f : Field) :
    (memberTy T s ns x f).text = typeText T s ns x f.type.variant ++ if memberOptional x f.rule then " | undefined".toList else [] := by
  unfold memberTy
  rw [typeText_eq]
  split
  · rfl
  · rw [List.append_nil]

theorem size_text : propText ("$size".toList, .number) = "$size: number".toList := by decide +kernel
theorem never_text : propText ("$field".toList, .never) = "$field: never".toList := by decide +kernel
theorem sep_0 : "$size: number;\n".toList = "$size: number".toList ++ ";\n".toList := by decide +kernel
theorem sep_1 : "$size: number; ".toList = "$size: number".toList ++ "; ".toList := by decide +kernel
theorem sep_2 : "$field: '".toList = "$field".toList ++ (": ".toList ++ "'".toList) := by decide +kernel
theorem sep_3 : "'; ".toList = "'".toList ++ "; ".toList := by decide +kernel
theorem sep_4 : "; $fallback: ".toList = "; ".toList ++ ("$fallback".toList ++ ": ".toList) := by decide +kernel
theorem sep_5 : "| { $field: never }".toList = "| { ".toList ++ ("$field: never".toList ++ " }".toList) := by decide +kernel
theorem sep_6 : " = never;\n".toList = " =".toList ++ (" never".toList ++ ";\n".toList) := by decide +kernel

theorem ref_text (n : Str) : (TsTy.ref [] n).text = n := rfl
theorem literal_text (s : Str) : (TsTy.literal s).text = "'".toList ++ s ++ "'".toList := rfl
theorem join_1 (sep a : Str) : joinWith sep [a] = a := rfl
theorem join_2 (sep a b : Str) : joinWith sep [a, b] = a ++ sep ++ b := rfl
theorem join_3 (sep a b c : Str) : joinWith sep [a, b, c] = a ++ sep ++ (b ++ sep ++ c) := rfl

theorem structText_eq (T : CharTable) (s : Schema) (ns : Namespace) (d : Declaration) (ind : Nat) (x : NameSuffix) (hv : d.variant = .struct) :
    structText T s ns d ind x = (declDef T s ns d x).text ind (tsPascal T d.name (some x)) := by
  unfold declDef
  rw [hv]
  simp only [TsDef.text, structText, List.flatMap_append, List.flatMap_map, List.append_assoc]
  congr 4
  have : ∀ rest : Str, ((if x = .atlas then indent (ind + 1) ++ "$size: number;\n".toList else []) ++ rest) =
      ((if x = .atlas then [("$size".toList, TsTy.number)] else []).flatMap (fun p => indent (ind + 1) ++ (propText p ++ ";\n".toList))) ++ rest := by
    intro rest
    split
    · rw [List.flatMap_singleton, size_text, sep_0]
    · rfl
  rw [this]
  congr 2
  congr 1
  funext f
  simp only [propText, memberTy_text, List.append_assoc]

theorem variantText_eq (T : CharTable) (s : Schema) (ns : Namespace) (d : Declaration) (x : NameSuffix) (f : Field) :
    (match x with
      | .atlas => "$size: number; ".toList
      | .in_ => "$field: '".toList ++ tsCamel T f.name ++ "'; ".toList
      | .out => []) ++ tsCamel T f.name ++ ": ".toList ++ typeText T s ns x f.type.variant ++
      (if variantFallback x f.rule then "; $fallback: ".toList ++ tsPascal T d.name (some x) else []) =
    joinWith "; ".toList ((variantProps T s ns d x f).map propText) := by
  unfold variantProps
  rw [typeText_eq]
  cases x <;> dsimp only <;> split <;>
    simp only [List.map_append, List.map_cons, List.map_nil, List.nil_append, List.cons_append, join_1, join_2, join_3, List.append_nil, List.append_assoc, size_text, sep_1] <;>
    simp only [propText, ref_text, literal_text, sep_2, sep_3, sep_4, List.append_assoc]

theorem choiceText_eq (T : CharTable) (s : Schema) (ns : Namespace) (d : Declaration) (ind : Nat) (x : NameSuffix) (hv : d.variant = .choice) :
    choiceText T s ns d ind x = (declDef T s ns d x).text ind (tsPascal T d.name (some x)) := by
  unfold declDef
  rw [hv]
  have hu : ∀ l : List TsProps, (TsDef.union l).text ind (tsPascal T d.name (some x)) = indent ind ++ "export type ".toList ++ tsPascal T d.name (some x) ++ " =".toList ++
      l.flatMap (fun props => "\n".toList ++ indent (ind + 1) ++ "| { ".toList ++ joinWith "; ".toList (props.map propText) ++ " }".toList) ++
      (if l.isEmpty then " never".toList else []) ++ ";\n".toList := by
    intro l
    cases l with
    | nil => simp only [TsDef.text, List.flatMap_nil, List.isEmpty_nil, if_true, List.append_nil, List.append_assoc, sep_6]
    | cons a l => simp only [TsDef.text, List.isEmpty_cons, Bool.false_eq_true, if_false, List.append_nil]
  dsimp only
  rw [hu]
  have he : (d.fields.map (variantProps T s ns d x) ++ if x = .in_ ∧ d.fields.length = 1 then [[("$field".toList, TsTy.never)]] else []).isEmpty = d.fields.isEmpty := by
    cases d.fields with
    | nil => rw [if_neg (by simp)]; rfl
    | cons => rfl
  rw [he, choiceText, List.flatMap_append, List.flatMap_map]
  have hn : ∀ (c : Prop) [Decidable c], (if c then [[("$field".toList, TsTy.never)]] else []).flatMap
      (fun props => "\n".toList ++ indent (ind + 1) ++ "| { ".toList ++ joinWith "; ".toList (props.map propText) ++ " }".toList) =
      if c then "\n".toList ++ indent (ind + 1) ++ "| { $field: never }".toList else [] := by
    intro c _
    split
    · rw [List.flatMap_singleton]
      simp only [List.map_cons, List.map_nil, join_1, never_text, sep_5, List.append_assoc]
    · rfl
  rw [hn]
  simp only [← variantText_eq, List.append_assoc]
  rfl

end Typical.TsGen

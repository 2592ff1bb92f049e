import Verif.Spec.Wire
import Verif.RustEnc

/-!
# Helper lemmas: the modelled encoder produces the specified layout
-/

namespace Typical
open Spec

theorem map_ofNat_toNat (bs : Bytes) : (bs.map UInt8.toNat).map UInt8.ofNat = bs := by
  induction bs with
  | nil => rfl
  | cons b bs ih => simp [ih]

theorem serializeVarint_eq (v : UInt64) : serializeVarint v = varintBytes v.toNat := by
  rw [varintBytes, ← serializeVarint_spec, map_ofNat_toNat]

theorem varintBytes_eq {n : Nat} (h : n < 2 ^ 64) :
    varintBytes n = serializeVarint (UInt64.ofNat n) := by
  rw [serializeVarint_eq, UInt64.toNat_ofNat_of_lt' h]

theorem toLeBytes_eq (v : UInt64) : toLeBytes v = fixed64 v.toNat := by
  simp only [toLeBytes, fixed64, littleEndian, List.map_cons, List.map_nil]
  simp only [List.cons.injEq, ← UInt8.toNat_inj, UInt64.toNat_toUInt8, UInt64.toNat_shiftRight,
    UInt8.toNat_ofNat', UInt64.reduceToNat, Nat.shiftRight_eq_div_pow, Nat.reduceMod, Nat.reducePow,
    and_true]
  refine ⟨?_, ?_, ?_, ?_, ?_, ?_, ?_, ?_⟩ <;> omega

theorem boolToU64_toNat (b : Bool) : (boolToU64 b).toNat = cond b 1 0 := by cases b <;> rfl

theorem zigzag_toNat (v : Int64) : (zigzagEncode v).toNat = (zigzag v.toInt).toNat := by
  rw [← C04_zigzag_closed_form]; rfl

theorem u64Field_eq (v : UInt64) : u64Field v = intField v.toNat := by
  unfold u64Field intField
  by_cases h : v = 0
  · subst h; rfl
  · have h' : v.toNat ≠ 0 := fun e => h (UInt64.toNat_inj.1 (by simpa using e))
    simp only [h, h', if_false, UInt64.le_iff_toNat_le, UInt64.reduceToNat, serializeVarint_eq,
      toLeBytes_eq, Nat.le_iff_lt_add_one, Nat.reduceAdd]

theorem f64Field_eq (v : UInt64) :
    f64Field v = if v.toNat = 0 then [] else fixed64 v.toNat := by
  unfold f64Field
  by_cases h : v = 0
  · subst h; rfl
  · have h' : v.toNat ≠ 0 := fun e => h (UInt64.toNat_inj.1 (by simpa using e))
    rw [if_pos h, if_neg h', toLeBytes_eq]

theorem serScalarField_eq : (s : Scalar) → (v : s.Val) → serScalarField s v = scalarField s v
  | .bool, (v : Bool) => (u64Field_eq _).trans (congrArg intField (boolToU64_toNat v))
  | .s64, (v : Int64) => (u64Field_eq _).trans (congrArg intField (zigzag_toNat v))
  | .u64, (v : UInt64) => u64Field_eq v
  | .f64, (v : UInt64) => f64Field_eq v

theorem serScalarElem_eq : (s : Scalar) → (v : s.Val) → serScalarElem s v = scalarElem s v
  | .bool, (v : Bool) => (serializeVarint_eq _).trans (congrArg varintBytes (boolToU64_toNat v))
  | .s64, (v : Int64) => (serializeVarint_eq _).trans (congrArg varintBytes (zigzag_toNat v))
  | .u64, (v : UInt64) => serializeVarint_eq v
  | .f64, (v : UInt64) => toLeBytes_eq v

theorem tag_toNat (i k : Nat) (hi : i < 2 ^ 62) (hk : k < 4) :
    ((UInt64.ofNat i <<< 2) ||| UInt64.ofNat k).toNat = 4 * i + k := by
  have h1 : (UInt64.ofNat i).toNat = i :=
    UInt64.toNat_ofNat_of_lt' (by simp only [UInt64.size]; omega)
  have h2 : (UInt64.ofNat k).toNat = k :=
    UInt64.toNat_ofNat_of_lt' (by simp only [UInt64.size]; omega)
  rw [UInt64.toNat_or, UInt64.toNat_shiftLeft, h1, h2]
  simp only [UInt64.reduceToNat, Nat.reduceMod, Nat.shiftLeft_eq]
  rw [Nat.mod_eq_of_lt (by omega), Nat.mul_comm]
  exact or_low i 2 k hk

theorem serializeFieldHeader_eq (i n : Nat) (b : Bool) (hi : i < 2 ^ 62) (hn : n < 2 ^ 64) :
    serializeFieldHeader i n b = header i n b := by
  have t0 := tag_toNat i 0 hi (by omega)
  have t1 := tag_toNat i 1 hi (by omega)
  have t2 := tag_toNat i 2 hi (by omega)
  have t3 := tag_toNat i 3 hi (by omega)
  simp only [UInt64.reduceOfNat] at t0 t1 t2 t3
  unfold serializeFieldHeader header sizeMode
  have hn' := UInt64.toNat_ofNat_of_lt' hn
  simp only [serializeVarint_eq]
  split
  · rw [t0]; simp
  · rw [t1]; simp
  · rename_i h0 h8
    have h0 : n ≠ 0 := h0
    have h8 : n ≠ 8 := h8
    rw [t2, t3, hn']
    cases b <;> simp [h0, h8]

theorem wireField_eq (i : Nat) (b : Bool) (p : Bytes) (hi : i < 2 ^ 62) (hn : p.length < 2 ^ 64) :
    wireField i b p = Spec.field i b p := by
  rw [wireField, Spec.field, serializeFieldHeader_eq i _ b hi hn]

theorem wireElems_eq (l : List Tree) : Tree.wireElems l =
    l.flatMap (fun t => varintBytes (t.wire false).length ++ t.wire false) := by
  induction l with
  | nil => rfl
  | cons t l ih => simp [Tree.wireElems, ih]

theorem wireFields_eq (l : List (Nat × Tree)) : Tree.wireFields l =
    l.flatMap (fun p => Spec.field p.1 p.2.isInteger (p.2.wire true)) := by
  induction l with
  | nil => rfl
  | cons p l ih => simp [Tree.wireFields, ih]

theorem wireFields_append (l l' : List (Nat × Tree)) :
    Tree.wireFields (l ++ l') = Tree.wireFields l ++ Tree.wireFields l' := by
  simp only [wireFields_eq, List.flatMap_append]

theorem length_le_flatMap {α : Type} (f : α → Bytes) {l : List α} {a : α} (h : a ∈ l) :
    (f a).length ≤ (l.flatMap f).length := by
  induction l with
  | nil => cases h
  | cons b l ih =>
    simp only [List.flatMap_cons, List.length_append]
    rcases List.mem_cons.1 h with h | h
    · subst h; omega
    · have := ih h; omega

theorem flatMap_congr' {α β : Type} (f : α → List β) (g : α → List β) (l : List α)
    (h : ∀ a ∈ l, f a = g a) : l.flatMap f = l.flatMap g := by
  induction l with
  | nil => rfl
  | cons a l ih =>
    rw [List.flatMap_cons, List.flatMap_cons, h a (by simp), ih (fun b hb => h b (by simp [hb]))]

theorem Ty.isInteger_tree (t : Ty) (m : t.Msg .out) : (t.tree m).isInteger = t.integerEncoded := by
  cases t with
  | unit => rfl
  | scalar s => cases s <;> rfl
  | comp c => cases c <;> rfl

theorem array_enc_aux {α : Type} (e w : α → Bytes)
    (h : ∀ a, (e a).length < 2 ^ 64 → e a = w a) (l : List α)
    (hl : (l.flatMap (fun x => serializeVarint (UInt64.ofNat (e x).length) ++ e x)).length < 2 ^ 64) :
    l.flatMap (fun x => serializeVarint (UInt64.ofNat (e x).length) ++ e x) =
      l.flatMap (fun x => varintBytes (w x).length ++ w x) := by
  apply flatMap_congr'
  intro a ha
  have h1 := length_le_flatMap (fun x => serializeVarint (UInt64.ofNat (e x).length) ++ e x) ha
  simp only [List.length_append] at h1
  have h2 : (e a).length < 2 ^ 64 := by omega
  rw [← varintBytes_eq h2, h a h2]

theorem chain_enc_aux {α β : Type} (f : α → Bytes) (g : β → Bytes) (f' : α → Nat × Tree)
    (g' : β → Nat × Tree)
    (hf : ∀ a, (f a).length < 2 ^ 64 →
      f a = Spec.field (f' a).1 (f' a).2.isInteger ((f' a).2.wire true))
    (hg : ∀ b, (g b).length < 2 ^ 64 →
      g b = Spec.field (g' b).1 (g' b).2.isInteger ((g' b).2.wire true))
    (m : Chain α β) (h : (chainBytes f g m).length < 2 ^ 64) :
    chainBytes f g m = Tree.wireFields (m.toList f' g') := by
  induction m with
  | last b =>
    simp only [chainBytes] at h
    simp only [chainBytes, Chain.toList, Tree.wireFields, List.append_nil]
    exact hg b h
  | more a rest ih =>
    simp only [chainBytes, List.length_append] at h
    simp only [chainBytes, Chain.toList, Tree.wireFields]
    rw [← hf a (by omega), ← ih (by omega)]

mutual
theorem CTy.enc_eq_wire (isField : Bool) : (c : CTy) → c.WF → (m : c.Msg .out) →
    (c.enc isField m).length < 2 ^ 64 → c.enc isField m = (c.tree m).wire isField
  | .bytes, _, m, _ => rfl
  | .string, _, m, _ => rfl
  | .units, _, n, _ => by
    simp only [CTy.enc, CTy.tree, Tree.wire]
    cases isField
    · exact serializeVarint_eq n
    · exact u64Field_eq n
  | .scalars s, _, m, _ => by
    simp only [CTy.enc, CTy.tree, Tree.wire]
    exact flatMap_congr' _ _ _ (fun v _ => serScalarElem_eq s v)
  | .array c, hw, m, h => by
    simp only [CTy.WF] at hw
    simp only [CTy.enc] at h
    simp only [CTy.enc, CTy.tree, Tree.wire, wireElems_eq]
    refine Eq.trans ?_ (List.flatMap_map (f := CTy.tree c) _ m).symm
    exact array_enc_aux (CTy.enc false c) (fun x => (c.tree x).wire false)
      (fun a => CTy.enc_eq_wire false c hw a) m h
  | .struct fs, hw, m, h => by
    simp only [CTy.WF] at hw
    simp only [CTy.enc] at h
    simp only [CTy.enc, CTy.tree, Tree.wire]
    exact Fields.encStruct_eq_wire fs hw.2 m h
  | .choice fs, hw, m, h => by
    simp only [CTy.WF] at hw
    simp only [CTy.enc] at h
    simp only [CTy.enc, CTy.tree, Tree.wire]
    exact chain_enc_aux _ _ _ _ (Fields.encSel_eq_wire fs hw.2) (Fields.encSel_eq_wire fs hw.2) m h

theorem Ty.enc_eq_wire : (t : Ty) → t.WF → (m : t.Msg .out) →
    (t.enc m).length < 2 ^ 64 → t.enc m = (t.tree m).wire true
  | .unit, _, _, _ => rfl
  | .scalar s, _, v, _ => by
    simp only [Ty.enc, Ty.tree, Tree.wire, if_true]
    exact serScalarField_eq s v
  | .comp c, hw, m, h => by
    simp only [Ty.WF] at hw
    simp only [Ty.enc] at h
    simp only [Ty.enc, Ty.tree]
    exact CTy.enc_eq_wire true c hw m h

theorem Fields.encStruct_eq_wire : (fs : Fields) → fs.WF → (m : fs.Struct .out) →
    (fs.encStruct m).length < 2 ^ 64 → fs.encStruct m = Tree.wireFields (fs.treeStruct m)
  | .nil, _, _, _ => rfl
  | .cons i r t rest, hw, (slot, m), h => by
    simp only [Fields.WF] at hw
    simp only [Fields.encStruct, List.length_append] at h
    simp only [Fields.encStruct, Fields.treeStruct]
    rw [Fields.encStruct_eq_wire rest hw.2.2 m (by omega), wireFields_append]
    congr 1
    cases hs : Slot.get? slot with
    | none => rfl
    | some p =>
      rw [hs] at h
      simp only [wireField, List.length_append] at h
      simp only [Tree.wireFields, List.append_nil]
      rw [wireField_eq i _ _ hw.1 (by omega), Ty.isInteger_tree,
        Ty.enc_eq_wire t hw.2.1 p (by omega)]

theorem Fields.encSel_eq_wire {fb : Bool} : (fs : Fields) → fs.WF → (p : fs.Sel .out fb) →
    (fs.encSel p).length < 2 ^ 64 →
    fs.encSel p = Spec.field (fs.treeSel p).1 (fs.treeSel p).2.isInteger ((fs.treeSel p).2.wire true)
  | .nil, _, e, _ => e.elim
  | .cons i r t rest, hw, .inl p, h => by
    simp only [Fields.WF] at hw
    simp only [Fields.encSel] at h
    simp only [Fields.encSel, Fields.treeSel]
    rw [wireField, List.length_append] at h
    rw [wireField_eq i _ _ hw.1 (by omega), Ty.isInteger_tree,
      Ty.enc_eq_wire t hw.2.1 p.val (by omega)]
  | .cons i r t rest, hw, .inr p, h => by
    simp only [Fields.WF] at hw
    simp only [Fields.encSel] at h
    simp only [Fields.encSel, Fields.treeSel]
    exact Fields.encSel_eq_wire rest hw.2.2 p h
end

end Typical

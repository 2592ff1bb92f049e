import Verif.TsLemmas
import Verif.RustEnc

/-!
# Helper lemmas: the TypeScript encoder writes the bytes of the Rust encoder
-/

namespace Typical.Ts

/-- The action writes the given bytes at the offset. -/
def Writes (f : W → Option W) (bs : Bytes) : Prop := ∀ w : W, w.off ≤ w.buf.length → f w = put bs w

theorem put_inv {bs : Bytes} {w w' : W} (h : put bs w = some w') :
    w'.off ≤ w'.buf.length ∧ w'.buf.length = w.buf.length := by
  unfold put at h
  split at h
  · cases h; simp; omega
  · cases h

theorem writes_put (bs : Bytes) : Writes (put bs) bs := fun _ _ => rfl

theorem writes_nil : Writes some [] := by
  intro w h
  unfold put
  rw [if_pos (by simpa using h)]
  simp

theorem Writes.bind {f g : W → Option W} {a b : Bytes} (hf : Writes f a) (hg : Writes g b) :
    Writes (fun w => (f w).bind g) (a ++ b) := by
  intro w h
  show (f w).bind g = _
  rw [hf w h]
  by_cases h1 : w.off + a.length ≤ w.buf.length
  · have e : put a w = some ⟨w.buf.take w.off ++ a ++ w.buf.drop (w.off + a.length), w.off + a.length⟩ := if_pos h1
    have hi := put_inv e
    rw [e, Option.bind_some, hg _ hi.1]
    unfold put
    simp only [hi.2, List.length_append]
    by_cases h2 : w.off + a.length + b.length ≤ w.buf.length
    · rw [if_pos h2, if_pos (by omega)]
      have l1 : (List.take w.off w.buf ++ a).length = w.off + a.length := by simp; omega
      have e1 : List.take (w.off + a.length) (List.take w.off w.buf ++ a ++ List.drop (w.off + a.length) w.buf) =
          List.take w.off w.buf ++ a := by rw [← l1, List.take_left]
      have e2 : List.drop (w.off + a.length + b.length)
          (List.take w.off w.buf ++ a ++ List.drop (w.off + a.length) w.buf) =
          List.drop (w.off + a.length + b.length) w.buf := by
        rw [← l1, ← List.drop_drop, List.drop_left, l1, List.drop_drop]
      rw [e1, e2]
      simp [Nat.add_assoc]
    · rw [if_neg h2, if_neg (by omega)]
  · have e : put a w = none := if_neg h1
    rw [e]
    unfold put
    rw [if_neg (by rw [List.length_append]; omega)]
    rfl

theorem serU64_field (v : UInt64) : Writes (serU64 true v.toNat) (u64Field v) := by
  intro w h
  unfold serU64 u64Field
  simp only [if_true]
  by_cases h0 : v = 0
  · subst h0
    exact writes_nil w h
  · have hn : v.toNat ≠ 0 := fun e => h0 (UInt64.toNat_inj.1 e)
    rw [if_neg h0]
    by_cases h7 : v ≤ 567382630219903
    · have : ¬ v.toNat > 567382630219903 := by
        rw [UInt64.le_iff_toNat_le] at h7; exact Nat.not_lt.2 h7
      rw [if_neg this, if_pos hn, if_pos h7, serializeVarint_eq]
    · have : v.toNat > 567382630219903 := by
        rw [UInt64.le_iff_toNat_le] at h7; exact Nat.not_le.1 h7
      rw [if_pos this, if_neg h7, u64_eq]

theorem serU64_elem (v : UInt64) : Writes (serU64 false v.toNat) (Typical.serializeVarint v) := by
  intro w h
  unfold serU64
  simp only [Bool.false_eq_true, if_false]
  rw [serializeVarint_eq]

theorem cond_nat (b : Bool) : cond b 1 0 = (boolToU64 b).toNat := by cases b <;> rfl

theorem u64FieldSize_eq' (v : UInt64) : u64FieldSize v.toNat = Typical.u64FieldSize v := by
  unfold u64FieldSize Typical.u64FieldSize
  simp only [le_iff v 567382630219903 567382630219904 rfl, varintSizeFromValue_eq]
  by_cases h0 : v = 0
  · subst h0; rfl
  · have hn : v.toNat ≠ 0 := fun e => h0 (UInt64.toNat_inj.1 e)
    rw [if_neg h0, if_neg hn]

theorem scalarFieldSize_eq' : (s : Scalar) → (v : s.Val) → scalarFieldSize s v = Typical.scalarFieldSize s v
  | .bool, _ => rfl
  | .s64, (v : Int64) => by
    show u64FieldSize (zigzagEncode v.toInt).toNat = Typical.u64FieldSize (Typical.zigzagEncode v)
    rw [zigzagEncode_eq, u64FieldSize_eq']
  | .u64, v => u64FieldSize_eq' v
  | .f64, _ => rfl

theorem scalarElemSize_eq' : (s : Scalar) → (v : s.Val) → scalarElemSize s v = Typical.scalarElemSize s v
  | .bool, _ => rfl
  | .s64, (v : Int64) => by
    show varintSizeFromValue (zigzagEncode v.toInt).toNat = Typical.varintSizeFromValue (Typical.zigzagEncode v)
    rw [zigzagEncode_eq, varintSizeFromValue_eq]
  | .u64, v => varintSizeFromValue_eq v
  | .f64, _ => rfl

theorem scalarsSize_eq' (s : Scalar) (vs : List s.Val) : scalarsSize s vs = Typical.scalarsSize s vs := by
  have : scalarElemSize s = Typical.scalarElemSize s := funext (scalarElemSize_eq' s)
  cases s
  case f64 => rfl
  all_goals simp only [scalarsSize, Typical.scalarsSize, this]

theorem serScalarField_writes : (s : Scalar) → (v : s.Val) →
    Writes (serScalarField s v (scalarFieldSize s v)) (Typical.serScalarField s v)
  | .bool, (v : Bool) => by
    intro w h
    show serU64 true (cond v 1 0) w = put (u64Field (boolToU64 v)) w
    rw [cond_nat]; exact serU64_field _ w h
  | .s64, (v : Int64) => by
    intro w h
    show serU64 true (zigzagEncode v.toInt).toNat w = put (u64Field (Typical.zigzagEncode v)) w
    rw [zigzagEncode_eq]; exact serU64_field _ w h
  | .u64, v => serU64_field v
  | .f64, (v : UInt64) => by
    intro w h
    show (if f64FieldSize v ≠ 0 then setFloat64 v w else some w) = put (f64Field v) w
    unfold f64FieldSize f64Field
    by_cases h0 : v = 0
    · rw [if_pos h0, if_neg (by simp), if_neg (by simp [h0])]; exact writes_nil w h
    · rw [if_neg h0, if_pos (by simp), if_pos h0, setFloat64, u64_eq]

theorem serScalarElem_writes : (s : Scalar) → (v : s.Val) →
    Writes (serScalarElem s v) (Typical.serScalarElem s v)
  | .bool, (v : Bool) => by
    intro w h
    show serU64 false (cond v 1 0) w = put (Typical.serializeVarint (boolToU64 v)) w
    rw [cond_nat]; exact serU64_elem _ w h
  | .s64, (v : Int64) => by
    intro w h
    show serU64 false (zigzagEncode v.toInt).toNat w = put (Typical.serializeVarint (Typical.zigzagEncode v)) w
    rw [zigzagEncode_eq]; exact serU64_elem _ w h
  | .u64, v => serU64_elem v
  | .f64, (v : UInt64) => by
    intro w h
    show setFloat64 v w = put (toLeBytes v) w
    rw [setFloat64, u64_eq]

theorem serEach_writes {α : Type} (f : α → W → Option W) (g : α → Bytes) (l : List α)
    (h : ∀ a ∈ l, Writes (f a) (g a)) : Writes (serEach f l) (l.flatMap g) := by
  induction l with
  | nil => exact writes_nil
  | cons a l ih =>
    rw [List.flatMap_cons]
    exact Writes.bind (h a (by simp)) (ih (fun a ha => h a (by simp [ha])))

theorem serEach_zip_writes {α β : Type} (at_ : α → β) (f : α → β → W → Option W) (g : α → Bytes) (l : List α)
    (h : ∀ a ∈ l, Writes (f a (at_ a)) (g a)) :
    Writes (serEach (fun p => f p.1 p.2) (l.zip (l.map at_))) (l.flatMap g) := by
  induction l with
  | nil => exact writes_nil
  | cons a l ih =>
    rw [List.flatMap_cons]
    exact Writes.bind (h a (by simp)) (ih (fun a ha => h a (by simp [ha])))

theorem chain_ok' {α β α' β' : Type} (fa : α → Nat × α') (ga : β → Nat × β')
    (fs : α → α' → W → Option W) (gs : β → β' → W → Option W) (f : α → Bytes) (g : β → Bytes)
    (hf : ∀ a, (f a).length < 2 ^ 64 → Writes (fs a (fa a).2) (f a) ∧ (fa a).1 = (f a).length)
    (hg : ∀ b, (g b).length < 2 ^ 64 → Writes (gs b (ga b).2) (g b) ∧ (ga b).1 = (g b).length) (m : Chain α β)
    (h : (chainBytes f g m).length < 2 ^ 64) :
    Writes (chainSer fs gs m (chainAtlas fa ga m)) (chainBytes f g m) ∧
      chainSize (chainAtlas fa ga m) = (chainBytes f g m).length := by
  induction m with
  | last b => exact ⟨(hg b h).1, (hg b h).2⟩
  | more a rest ih =>
    simp only [chainBytes, List.length_append] at h
    have ih := ih (by omega)
    have hf := hf a (by omega)
    constructor
    · exact Writes.bind hf.1 ih.1
    · simp only [chainAtlas, chainSize, chainBytes, List.length_append, hf.2]
      rw [← ih.2]
      rfl

theorem mem_flatMap_length {α : Type} (f : α → Bytes) {a : α} {l : List α} (h : a ∈ l) :
    (f a).length ≤ (l.flatMap f).length := by
  induction l with
  | nil => cases h
  | cons b l ih =>
    rw [List.flatMap_cons, List.length_append]
    rcases List.mem_cons.1 h with rfl | h
    · omega
    · have := ih h; omega

theorem foldl_map_size' {α β : Type} (a : α → β) (f g : β → Nat) (e : α → Bytes) (l : List α)
    (h : ∀ x ∈ l, f (a x) + g (a x) = (e x).length) :
    ∀ k, (l.map a).foldl (fun x y => x + f y + g y) k = k + (l.flatMap e).length := by
  induction l with
  | nil => intro k; rfl
  | cons b l ih =>
    intro k
    rw [List.map_cons, List.foldl_cons, ih (fun x hx => h x (by simp [hx])), List.flatMap_cons,
      List.length_append, ← h b (by simp)]
    omega

mutual
theorem cSer_atlas (isField : Bool) : (c : CTy) → c.WF → (m : c.Msg .out) →
    (c.enc isField m).length < 2 ^ 64 →
    Writes (cSer isField c m (cAtlas isField c m)) (c.enc isField m) ∧
      cSize c (cAtlas isField c m) = (c.enc isField m).length
  | .bytes, _, m, _ => ⟨writes_put _, rfl⟩
  | .string, _, m, _ => ⟨writes_put _, rfl⟩
  | .units, _, n, _ => by
    cases isField
    · exact ⟨serU64_elem n, (varintSizeFromValue_eq n).trans (varintSize_eq n)⟩
    · exact ⟨serU64_field n, (u64FieldSize_eq' n).trans (u64FieldSize_eq n)⟩
  | .scalars s, _, m, _ => by
    refine ⟨serEach_writes _ _ m (fun a _ => serScalarElem_writes s a), ?_⟩
    exact (scalarsSize_eq' s m).trans (scalarsSize_eq s m)
  | .array c, hw, m, h => by
    simp only [CTy.WF] at hw
    have ih := cSer_atlas false c hw
    have hl : ∀ x ∈ (id m : List (c.Msg .out)), (c.enc false x).length < 2 ^ 64 := by
      intro x hx
      have := mem_flatMap_length (fun x =>
        Typical.serializeVarint (UInt64.ofNat (c.enc false x).length) ++ c.enc false x) hx
      simp only [CTy.enc] at h
      rw [List.length_append] at this
      simp only [id] at this
      omega
    constructor
    · refine serEach_zip_writes (cAtlas false c)
        (fun x a w => (put (serializeVarint (cSize c a)) w).bind (cSer false c x a)) _ m ?_
      intro x hx
      have := ih x (hl x hx)
      rw [this.2, serializeVarint_nat (hl x hx)]
      exact Writes.bind (writes_put _) this.1
    · have e : cSize (.array c) (cAtlas isField (.array c) m) =
          (m.map (cAtlas false c)).foldl (fun x a => x + varintSizeFromValue (cSize c a) + cSize c a) 0 := by
        simp only [cAtlas, cSize]
      rw [e, foldl_map_size' (cAtlas false c) (fun a => varintSizeFromValue (cSize c a)) (cSize c)
        (fun x => Typical.serializeVarint (UInt64.ofNat (c.enc false x).length) ++ c.enc false x) m
        (fun x hx => by
          rw [(ih x (hl x hx)).2, varintSizeFromValue_nat (hl x hx), varintSize_eq, List.length_append]) 0,
        Nat.zero_add]
      simp only [CTy.enc]
  | .struct fs, hw, m, h => by
    simp only [CTy.WF] at hw
    simp only [CTy.enc] at h
    have := structSer_atlas fs hw.2 m h
    exact this
  | .choice fs, hw, m, h => by
    simp only [CTy.WF] at hw
    simp only [CTy.enc] at h
    have := chain_ok' (selAtlas fs) (selAtlas fs) (selSer fs) (selSer fs)
      (Fields.encSel fs) (Fields.encSel fs) (selSer_atlas fs hw.2) (selSer_atlas fs hw.2) m h
    refine ⟨this.1, ?_⟩
    have e : (CTy.choice fs).enc isField m = chainBytes (Fields.encSel fs) (Fields.encSel fs) m := rfl
    rw [e, ← this.2]
    cases m <;> rfl

theorem tSer_atlas : (t : Ty) → t.WF → (m : t.Msg .out) → (t.enc m).length < 2 ^ 64 →
    Writes (tSer t m (tAtlas t m)) (t.enc m) ∧ tSize t (tAtlas t m) = (t.enc m).length
  | .unit, _, m, _ => ⟨writes_nil, rfl⟩
  | .scalar s, _, v, _ => ⟨serScalarField_writes s v, (scalarFieldSize_eq' s v).trans (scalarFieldSize_eq s v)⟩
  | .comp c, hw, m, h => by
    simp only [Ty.WF] at hw
    exact cSer_atlas true c hw m h

theorem structSer_atlas : (fs : Fields) → fs.WF → (m : fs.Struct .out) → (fs.encStruct m).length < 2 ^ 64 →
    Writes (structSer fs m (structAtlas fs m).2) (fs.encStruct m) ∧
      (structAtlas fs m).1 = (fs.encStruct m).length
  | .nil, _, _, _ => ⟨writes_nil, rfl⟩
  | .cons i r t rest, hw, (slot, m), h => by
    simp only [Fields.WF] at hw
    simp only [Fields.encStruct, List.length_append] at h
    have ih := structSer_atlas rest hw.2.2 m (by omega)
    have iht := tSer_atlas t hw.2.1
    simp only [structAtlas, Fields.encStruct, Slot.get?_map, List.length_append]
    have e : structSer (.cons i r t rest) (slot, m) (Slot.map (tAtlas t) slot, (structAtlas rest m).snd) =
      fun w => (match Slot.get? slot, Slot.get? (Slot.map (tAtlas t) slot) with
        | some p, some pa => (put (serializeFieldHeader i (tSize t pa) t.integerEncoded) w).bind (tSer t p pa)
        | _, _ => some w).bind (structSer rest m (structAtlas rest m).snd) := rfl
    rw [e, Slot.get?_map]
    cases hs : Slot.get? slot with
    | none =>
      refine ⟨Writes.bind writes_nil ih.1, ?_⟩
      rw [ih.2]; rfl
    | some p =>
      rw [hs] at h
      simp only [wireField, List.length_append] at h
      have iht := iht p (by omega)
      simp only [Option.map_some, iht.2, ih.2]
      rw [fieldHeaderSize_eq hw.1 (by omega), Typical.fieldHeaderSize_eq,
        serializeFieldHeader_eq hw.1 (by omega), wireField, List.length_append]
      refine ⟨?_, rfl⟩
      exact Writes.bind (Writes.bind (writes_put _) iht.1) ih.1

theorem selSer_atlas {fb : Bool} : (fs : Fields) → fs.WF → (p : fs.Sel .out fb) →
    (fs.encSel p).length < 2 ^ 64 →
    Writes (selSer fs p (selAtlas fs p).2) (fs.encSel p) ∧
      (selAtlas fs p).1 = (fs.encSel p).length
  | .nil, _, e, _ => e.elim
  | .cons i r t rest, hw, .inl p, h => by
    simp only [Fields.WF] at hw
    simp only [Fields.encSel, wireField, List.length_append] at h
    have iht := tSer_atlas t hw.2.1 p.val (by omega)
    simp only [selAtlas, Fields.encSel, iht.2]
    rw [fieldHeaderSize_eq hw.1 (by omega), Typical.fieldHeaderSize_eq, wireField, List.length_append]
    refine ⟨?_, rfl⟩
    have := Writes.bind (writes_put (Typical.serializeFieldHeader i (t.enc p.val).length t.integerEncoded)) iht.1
    rw [← serializeFieldHeader_eq hw.1 (by omega), ← iht.2] at this
    rw [← serializeFieldHeader_eq hw.1 (by omega), ← iht.2]
    exact this
  | .cons i r t rest, hw, .inr p, h => by
    simp only [Fields.WF] at hw
    exact selSer_atlas rest hw.2.2 p h
end

theorem size_enc (c : CTy) (hw : c.WF) (m : c.Msg .out) (h : (c.enc false m).length < 2 ^ 64) :
    size c m = (c.enc false m).length := (cSer_atlas false c hw m h).2

theorem serialize_enc (c : CTy) (hw : c.WF) (m : c.Msg .out) (h : (c.enc false m).length < 2 ^ 64) :
    serialize c m = some (c.enc false m) := by
  have hs := cSer_atlas false c hw m h
  unfold serialize
  dsimp only
  rw [hs.2, hs.1 _ (by simp)]
  unfold put
  rw [if_pos (by simp)]
  simp

end Typical.Ts

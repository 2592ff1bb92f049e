import Verif.Rust
import Verif.Props.Varint

/-!
# Helper: a direct encoder equal to the atlas-based one

`enc` computes the bytes written without the intermediate atlas. It is only used in proofs:
`serWith_atlas` shows that the modelled code writes the same bytes.
-/

namespace Typical

/-- A field on the wire: header followed by payload. -/
def wireField (index : Nat) (integerEncoded : Bool) (payload : Bytes) : Bytes :=
  serializeFieldHeader index payload.length integerEncoded ++ payload

/-- Concatenation of the fields of a chain. -/
def chainBytes {α β : Type} (f : α → Bytes) (g : β → Bytes) : Chain α β → Bytes
  | .last b => g b
  | .more a rest => f a ++ chainBytes f g rest

mutual
def CTy.enc (isField : Bool) : (c : CTy) → c.Msg .out → Bytes
  | .bytes, m => m
  | .string, m => m.bytes
  | .units, n => if isField then u64Field n else serializeVarint n
  | .scalars s, m => m.flatMap (serScalarElem s)
  | .array c, m =>
    m.flatMap (fun x =>
      serializeVarint (UInt64.ofNat (CTy.enc false c x).length) ++ CTy.enc false c x)
  | .struct fs, m => Fields.encStruct fs m
  | .choice fs, m => chainBytes (Fields.encSel fs) (Fields.encSel fs) m

def Ty.enc : (t : Ty) → t.Msg .out → Bytes
  | .unit, _ => []
  | .scalar s, v => serScalarField s v
  | .comp c, m => CTy.enc true c m

def Fields.encStruct : (fs : Fields) → fs.Struct .out → Bytes
  | .nil, _ => []
  | .cons i _ t rest, (slot, m) =>
    (match Slot.get? slot with
     | none => []
     | some p => wireField i t.integerEncoded (Ty.enc t p)) ++ Fields.encStruct rest m

def Fields.encSel {fb : Bool} : (fs : Fields) → fs.Sel .out fb → Bytes
  | .nil, e => e.elim
  | .cons i _ t _, .inl p => wireField i t.integerEncoded (Ty.enc t p.val)
  | .cons _ _ _ rest, .inr p => Fields.encSel rest p
end

theorem varintSize_eq (v : UInt64) : varintSizeFromValue v = (serializeVarint v).length := by
  rw [(C02_varint_length v).1, (C02_varint_length v).2]

theorem fieldHeaderSize_eq (i n : Nat) (b : Bool) :
    fieldHeaderSize i n b = (serializeFieldHeader i n b).length := by
  unfold fieldHeaderSize serializeFieldHeader
  simp only [varintSize_eq]
  split <;> (try split) <;> simp

theorem u64FieldSize_eq (v : UInt64) : u64FieldSize v = (u64Field v).length := by
  unfold u64FieldSize u64Field
  split
  · rfl
  split
  · exact varintSize_eq v
  · rfl

theorem scalarFieldSize_eq (s : Scalar) (v : s.Val) :
    scalarFieldSize s v = (serScalarField s v).length := by
  cases s
  · simp only [scalarFieldSize, serScalarField, boolToU64]
    cases v <;> decide
  · exact u64FieldSize_eq _
  · exact u64FieldSize_eq _
  · simp only [scalarFieldSize, serScalarField, f64FieldSize, f64Field]
    split <;> simp_all [toLeBytes]

theorem scalarElemSize_eq (s : Scalar) (v : s.Val) :
    scalarElemSize s v = (serScalarElem s v).length := by
  cases s
  · simp only [scalarElemSize, serScalarElem, boolToU64]
    cases v <;> decide
  · exact varintSize_eq _
  · exact varintSize_eq _
  · rfl

theorem foldl_size {α : Type} (f : α → Nat) (g : α → Bytes) (h : ∀ a, f a = (g a).length)
    (l : List α) (k : Nat) :
    l.foldl (fun x v => x + f v) k = k + (l.flatMap g).length := by
  induction l generalizing k with
  | nil => rfl
  | cons a l ih =>
    rw [List.foldl_cons, ih, List.flatMap_cons, List.length_append, h]; omega

theorem foldl_map_size {α β : Type} (a : α → β) (f g : β → Nat) (e : α → Bytes)
    (h : ∀ x, f (a x) + g (a x) = (e x).length) (l : List α) :
    (l.map a).foldl (fun x y => x + f y + g y) 0 = (l.flatMap e).length := by
  rw [List.foldl_map]
  simp only [Nat.add_assoc]
  rw [foldl_size (fun x => f (a x) + g (a x)) e h l 0, Nat.zero_add]

theorem scalarsSize_eq (s : Scalar) (vs : List s.Val) :
    scalarsSize s vs = (vs.flatMap (serScalarElem s)).length := by
  have h := foldl_size (scalarElemSize s) (serScalarElem s) (scalarElemSize_eq s) vs 0
  cases s
  case f64 =>
    simp only [scalarsSize]
    clear h
    induction vs with
    | nil => rfl
    | cons a l ih =>
      simp only [List.length_cons, List.flatMap_cons, List.length_append, ← ih]
      simp only [serScalarElem, toLeBytes, List.length_cons, List.length_nil]; omega
  all_goals simp only [scalarsSize, h]; omega

theorem Slot.get?_map {α β : Type} (f : α → β) {b : Bool} (s : Slot b α) :
    (Slot.map f s).get? = s.get?.map f := by
  cases b <;> rfl

/-- Size recorded in a choice's atlas. -/
def chainSize {α' β' : Type} : Chain (Nat × α') (Nat × β') → Nat
  | .last b => b.1
  | .more a _ => a.1

theorem chain_ok {α β α' β' : Type} (fa : α → Nat × α') (ga : β → Nat × β')
    (fs : α → α' → Option Bytes) (gs : β → β' → Option Bytes) (f : α → Bytes) (g : β → Bytes)
    (hf : ∀ a, fs a (fa a).2 = some (f a) ∧ (fa a).1 = (f a).length)
    (hg : ∀ b, gs b (ga b).2 = some (g b) ∧ (ga b).1 = (g b).length) (m : Chain α β) :
    CTy.serWith.chainSer fs gs m (CTy.atlas.chainAtlas fa ga m) = some (chainBytes f g m) ∧
      chainSize (CTy.atlas.chainAtlas fa ga m) = (chainBytes f g m).length := by
  induction m with
  | last b => exact ⟨(hg b).1, (hg b).2⟩
  | more a rest ih =>
    constructor
    · simp only [CTy.atlas.chainAtlas, CTy.serWith.chainSer, chainBytes, (hf a).1, ih.1, catOpt]
    · simp only [CTy.atlas.chainAtlas, chainSize, chainBytes, List.length_append, (hf a).2]
      rw [← ih.2]
      rfl

mutual
theorem CTy.serWith_atlas (isField : Bool) : (c : CTy) → (m : c.Msg .out) →
    c.serWith isField m (c.atlas isField m) = some (c.enc isField m) ∧
      c.atlasSize (c.atlas isField m) = (c.enc isField m).length
  | .bytes, m => ⟨rfl, rfl⟩
  | .string, m => ⟨rfl, rfl⟩
  | .units, n => by
    refine ⟨rfl, ?_⟩
    simp only [CTy.atlas, CTy.enc, CTy.atlasSize]
    cases isField
    · exact varintSize_eq n
    · exact u64FieldSize_eq n
  | .scalars s, m => by
    refine ⟨rfl, ?_⟩
    simp only [CTy.atlas, CTy.enc, CTy.atlasSize]
    exact scalarsSize_eq s m
  | .array c, m => by
    have ih := CTy.serWith_atlas false c
    constructor
    · simp only [CTy.atlas, CTy.enc, CTy.serWith]
      induction m with
      | nil => rfl
      | cons x m ihm =>
        simp only [List.map_cons, List.zip_cons_cons, List.foldr_cons, List.flatMap_cons]
        rw [ihm, (ih x).1, (ih x).2]
        simp only [catOpt]
    · have e : (CTy.array c).atlasSize (CTy.atlas isField (.array c) m) =
          (m.map (CTy.atlas false c)).foldl (fun x a =>
            x + varintSizeFromValue (UInt64.ofNat (c.atlasSize a)) + c.atlasSize a) 0 := by
        simp only [CTy.atlas, CTy.atlasSize]
      rw [e]
      simp only [CTy.enc]
      exact foldl_map_size (CTy.atlas false c) _ _ _
        (fun a => by simp only [varintSize_eq, (ih a).2, List.length_append]) m
  | .struct fs, m => by
    have := Fields.structSer_atlas fs m
    simpa only [CTy.atlas, CTy.enc, CTy.atlasSize, CTy.serWith] using this
  | .choice fs, m => by
    have := chain_ok (Fields.selAtlas fs) (Fields.selAtlas fs) (Fields.selSer fs) (Fields.selSer fs)
      (Fields.encSel fs) (Fields.encSel fs) (Fields.selSer_atlas fs) (Fields.selSer_atlas fs) m
    simp only [CTy.atlas, CTy.enc, CTy.serWith]
    refine ⟨this.1, ?_⟩
    rw [← this.2]
    cases m <;> rfl

theorem Ty.serWith_atlas : (t : Ty) → (m : t.Msg .out) →
    t.serWith m (t.atlas m) = some (t.enc m) ∧ t.atlasSize (t.atlas m) = (t.enc m).length
  | .unit, m => ⟨rfl, rfl⟩
  | .scalar s, v => ⟨rfl, scalarFieldSize_eq s v⟩
  | .comp c, m => by
    simpa only [Ty.atlas, Ty.enc, Ty.atlasSize, Ty.serWith] using CTy.serWith_atlas true c m

theorem Fields.structSer_atlas : (fs : Fields) → (m : fs.Struct .out) →
    fs.structSer m (fs.structAtlas m).2 = some (fs.encStruct m) ∧
      (fs.structAtlas m).1 = (fs.encStruct m).length
  | .nil, _ => ⟨rfl, rfl⟩
  | .cons i r t rest, (slot, m) => by
    have ih := Fields.structSer_atlas rest m
    have iht := Ty.serWith_atlas t
    simp only [Fields.structAtlas, Fields.encStruct, Fields.structSer, Slot.get?_map]
    cases h : Slot.get? slot with
    | none =>
      simp only [Option.map_none, ih.1, ih.2, catOpt, List.nil_append, Nat.zero_add, and_self]
    | some p =>
      simp only [Option.map_some, ih.1, ih.2, (iht p).1, (iht p).2, catOpt, fieldHeaderSize_eq,
        wireField, List.length_append, and_self]

theorem Fields.selSer_atlas {fb : Bool} : (fs : Fields) → (p : fs.Sel .out fb) →
    fs.selSer p (fs.selAtlas p).2 = some (fs.encSel p) ∧
      (fs.selAtlas p).1 = (fs.encSel p).length
  | .nil, e => e.elim
  | .cons i r t rest, .inl p => by
    have iht := Ty.serWith_atlas t p.val
    simp only [Fields.selAtlas, Fields.encSel, Fields.selSer, iht.1, iht.2, catOpt,
      fieldHeaderSize_eq, wireField, List.length_append, and_self]
  | .cons i r t rest, .inr p => by
    have ih := Fields.selSer_atlas rest p
    simpa only [Fields.selAtlas, Fields.encSel, Fields.selSer] using ih
end

theorem serialize_eq (c : CTy) (m : c.Msg .out) : serialize c m = some (c.enc false m) :=
  (CTy.serWith_atlas false c m).1

theorem size_eq (c : CTy) (m : c.Msg .out) : size c m = (c.enc false m).length :=
  (CTy.serWith_atlas false c m).2

end Typical

import Verif.Gen.AtlasProof
import Verif.Front.DenoteLemmas

/-!
# Helper: values of generated types are encoded messages
-/

namespace Typical.Gen

variable {T : CharTable} {S : Schemas}

/-! ### Types with names exist -/

theorem namedType_array {ns : Namespace} {s : Schema} {r : SourceRange} {tv : TypeVariant} {N : NTy} (h : NamedType T S ns s tv N) :
    ∃ N', NamedType T S ns s (.array r tv) (.comp N') ∧ N'.erase = arrayOf N.erase := by
  cases N with
  | unit => cases h; exact ⟨_, .units, rfl⟩
  | scalar sc => exact ⟨_, .scalars h, rfl⟩
  | comp c => exact ⟨_, .array h, rfl⟩

mutual
theorem named_exists {k : List Str × Str} {c : CTy} : S.Denotes k c → ∃ N, Named T S k N ∧ N.erase = c
  | .struct h1 h2 h3 => by
    obtain ⟨N, h, rfl⟩ := namedFields_exists h3
    exact ⟨_, .struct h1 h2 h, rfl⟩
  | .choice h1 h2 h3 => by
    obtain ⟨N, h, rfl⟩ := namedFields_exists h3
    exact ⟨_, .choice h1 h2 h, rfl⟩
theorem namedFields_exists {ns : Namespace} {s : Schema} {fs : List Field} {Fs : Fields} : S.DenotesFields ns s fs Fs →
    ∃ N, NamedFields T S ns s fs N ∧ N.erase = Fs
  | .nil => ⟨_, .nil, rfl⟩
  | .cons h1 h2 => by
    obtain ⟨N, h, rfl⟩ := namedType_exists h1
    obtain ⟨N', h', rfl⟩ := namedFields_exists h2
    exact ⟨_, .cons h h', rfl⟩
theorem namedType_exists {ns : Namespace} {s : Schema} {v : TypeVariant} {t : Ty} : S.DenotesType ns s v t →
    ∃ N, NamedType T S ns s v N ∧ N.erase = t
  | .bool => ⟨_, .bool, rfl⟩
  | .f64 => ⟨_, .f64, rfl⟩
  | .s64 => ⟨_, .s64, rfl⟩
  | .u64 => ⟨_, .u64, rfl⟩
  | .unit => ⟨_, .unit, rfl⟩
  | .bytes => ⟨_, .bytes, rfl⟩
  | .string => ⟨_, .string, rfl⟩
  | .array h => by
    obtain ⟨N, hN, rfl⟩ := namedType_exists h
    obtain ⟨N', h', e⟩ := namedType_array hN
    exact ⟨_, h', by rw [NTy.erase, e]⟩
  | .custom h1 h2 => by
    obtain ⟨N, h, rfl⟩ := named_exists h2
    exact ⟨_, .custom h1 h, rfl⟩
end

mutual
theorem Named.denotes {k : List Str × Str} {N : NCTy} : Named T S k N → S.Denotes k N.erase
  | .struct h1 h2 h3 => .struct h1 h2 (NamedFields.denotes h3)
  | .choice h1 h2 h3 => .choice h1 h2 (NamedFields.denotes h3)
theorem NamedFields.denotes {ns : Namespace} {s : Schema} {fs : List Field} {N : NFields} : NamedFields T S ns s fs N →
    S.DenotesFields ns s fs N.erase
  | .nil => .nil
  | .cons h1 h2 => .cons (NamedType.denotes h1) (NamedFields.denotes h2)
theorem NamedType.denotes {ns : Namespace} {s : Schema} {v : TypeVariant} {N : NTy} : NamedType T S ns s v N →
    S.DenotesType ns s v N.erase
  | .bool => .bool
  | .f64 => .f64
  | .s64 => .s64
  | .u64 => .u64
  | .unit => .unit
  | .bytes => .bytes
  | .string => .string
  | .units => .array .unit
  | .scalars h => .array (NamedType.denotes h)
  | .array h => .array (NamedType.denotes h)
  | .custom h1 h2 => .custom h1 (Named.denotes h2)
end

theorem NamedType.scalarType {ns : Namespace} {s : Schema} {tv : TypeVariant} {N : NTy} : NamedType T S ns s tv N →
    (Gen.scalarType tv = match N with | .scalar sc => some sc | _ => none) ∧ (tv = .unit ↔ N = .unit)
  | .bool => ⟨rfl, by simp⟩
  | .f64 => ⟨rfl, by simp⟩
  | .s64 => ⟨rfl, by simp⟩
  | .u64 => ⟨rfl, by simp⟩
  | .unit => ⟨rfl, by simp⟩
  | .bytes => ⟨rfl, by simp⟩
  | .string => ⟨rfl, by simp⟩
  | .units => ⟨rfl, by simp⟩
  | .scalars h => ⟨rfl, by simp⟩
  | .array h => ⟨rfl, by simp⟩
  | .custom h1 h2 => ⟨rfl, by simp⟩

/-! ### Encoded messages are values -/

theorem treeStruct_cons {d : Dir} {i : Nat} {r : Rule} {t : Ty} {fs : Fields} (a : Slot (r.mayOmit d) (t.Msg d)) (m : fs.Struct d) :
    Fields.treeStruct (.cons i r t fs) (a, m) = ((Slot.get? a).map (fun p => (i, t.tree p))).toList ++ fs.treeStruct m := by
  rw [Fields.treeStruct]
  cases Slot.get? a <;> rfl

theorem holdsElems_map {α : Type} {x : Dir} {ns : Namespace} {s : Schema} {tv : TypeVariant} (f : α → Val) (g : α → Tree)
    (h : ∀ a, HoldsType T S x ns s tv (f a) (g a)) : (l : List α) → HoldsElems T S x ns s tv (l.map f) (l.map g)
  | [] => .nil
  | a :: l => .cons (h a) (holdsElems_map f g h l)

mutual
theorem Named.holds {x : Dir} {k : List Str × Str} {c : NCTy} : Named T S k c → (m : c.erase.Msg x) →
    Holds T S x k (c.enc x m) (c.erase.tree m)
  | .struct (fs := fs) h1 h2 h3, m => by
    change fs.erase.Struct x at m
    exact .struct h1 h2 (NamedFields.holdsMembers h3 m)
  | .choice (d := d) (fs := fs) (ns := ns) h1 h2 h3, m => by
    change Chain (fs.erase.Sel x true) (fs.erase.Sel x false) at m
    have hs := fun {fb : Bool} (p : fs.erase.Sel x fb) => NamedFields.holdsSel h3 p
    show Holds T S x k (encChain ((declName T ns d).id (suffix x)) (NFields.encSel x fs) (NFields.encSel x fs) m)
      (.fields (Chain.toList (Fields.treeSel fs.erase) (Fields.treeSel fs.erase) m))
    clear h3
    induction m with
    | last b =>
      obtain ⟨f, hf, hr, e1, e2, hp⟩ := hs b
      rw [encChain, Chain.toList, e1, show Fields.treeSel fs.erase b = (f.index, _) from Prod.ext e2 rfl]
      exact .last h1 h2 hf hr hp
    | more a rest ih =>
      obtain ⟨f, hf, hr, e1, e2, hp⟩ := hs a
      rw [encChain, Chain.toList, e1, show Fields.treeSel fs.erase a = (f.index, _) from Prod.ext e2 rfl]
      exact .more h1 h2 hf hr hp ih
theorem NamedFields.holdsMembers {x : Dir} {ns : Namespace} {s : Schema} {fs : List Field} {N : NFields} : NamedFields T S ns s fs N →
    (m : N.erase.Struct x) → HoldsMembers T S x ns s fs (N.encStruct x m) (N.erase.treeStruct m)
  | .nil, _ => .nil
  | .cons (f := f) (t := t) (fs := fs) (Fs := Fs) h1 h2, m => by
    change Slot (f.rule.mayOmit x) (t.erase.Msg x) × Fs.erase.Struct x at m
    obtain ⟨a, m⟩ := m
    show HoldsMembers T S x ns s (f :: fs) ((rustSnake f.name, encSlot (NTy.enc x t) (f.rule.mayOmit x) a) :: Fs.encStruct x m)
      (Fields.treeStruct (.cons f.index f.rule t.erase Fs.erase) (a, m))
    rw [treeStruct_cons]
    generalize hb : f.rule.mayOmit x = b at a ⊢
    cases b with
    | false => exact .plain hb (NamedType.holds h1 a) (NamedFields.holdsMembers h2 m)
    | true =>
      change Option (t.erase.Msg x) at a
      cases a with
      | none => exact .absent hb (NamedFields.holdsMembers h2 m)
      | some a => exact .present hb (NamedType.holds h1 a) (NamedFields.holdsMembers h2 m)
theorem NamedFields.holdsSel {x : Dir} {fb : Bool} {ns : Namespace} {s : Schema} {fs : List Field} {N : NFields} : NamedFields T S ns s fs N →
    (p : N.erase.Sel x fb) → ∃ f ∈ fs, f.rule.hasFallback x = fb ∧ (N.encSel x p).1 = rustPascal T f.name none ∧
      (N.erase.treeSel p).1 = f.index ∧ HoldsPayload T S x ns s f.type.variant (N.encSel x p).2 (N.erase.treeSel p).2
  | .nil, p => p.elim
  | .cons (f := f) (t := t) (fs := fs) (Fs := Fs) h1 h2, p => by
    change Guard (f.rule.hasFallback x = fb) (t.erase.Msg x) ⊕ Fs.erase.Sel x fb at p
    cases p with
    | inl p =>
      have hu := h1.scalarType.2
      refine ⟨f, List.mem_cons_self, p.ok, ?_⟩
      have hp := NamedType.holds h1 p.val
      cases t with
      | unit => exact ⟨rfl, rfl, by
          show HoldsPayload T S x ns s f.type.variant [] .unit
          rw [hu.mpr rfl]
          exact .unit⟩
      | scalar sc => exact ⟨rfl, rfl, .other (fun g => by cases hu.mp g) hp⟩
      | comp c => exact ⟨rfl, rfl, .other (fun g => by cases hu.mp g) hp⟩
    | inr p =>
      obtain ⟨g, hg, h⟩ := NamedFields.holdsSel h2 p
      refine ⟨g, List.mem_cons_of_mem _ hg, ?_⟩
      cases t <;> exact h
theorem NamedType.holds {x : Dir} {ns : Namespace} {s : Schema} {tv : TypeVariant} {N : NTy} : NamedType T S ns s tv N →
    (m : N.erase.Msg x) → HoldsType T S x ns s tv (N.enc x m) (N.erase.tree m)
  | .bool, m => .scalar (c := .bool) m rfl
  | .f64, m => .scalar (c := .f64) m rfl
  | .s64, m => .scalar (c := .s64) m rfl
  | .u64, m => .scalar (c := .u64) m rfl
  | .unit, _ => .unit
  | .bytes, m => .bytes m
  | .string, m => .string m
  | .units, m => .units m
  | .scalars h, m => .scalars m h.scalarType.1
  | .array h, m => .array (fun g => by cases h.scalarType.2.mp g) h.scalarType.1 (holdsElems_map _ _ (fun a => NamedType.holds h a) m)
  | .custom h1 h2, m => .custom h1 (Named.holds h2 m)
end

/-! ### Values are encoded messages -/

theorem NamedFields.sel {x : Dir} {ns : Namespace} {s : Schema} {f : Field} : {fs : List Field} → {N : NFields} → NamedFields T S ns s fs N → f ∈ fs →
    ∃ t, NamedType T S ns s f.type.variant t ∧ ∀ (fb : Bool), f.rule.hasFallback x = fb → ∀ m : t.erase.Msg x, ∃ p : N.erase.Sel x fb,
      N.encSel x p = (rustPascal T f.name none, match t, m with
        | .unit, _ => []
        | .scalar sc, m => [encScalar sc m]
        | .comp c, m => [c.enc x m]) ∧ N.erase.treeSel p = (f.index, t.erase.tree m)
  | _, _, .cons (t := t) h1 h2, h => by
    rcases List.mem_cons.mp h with rfl | h
    · refine ⟨t, h1, fun fb hr m => ⟨.inl ⟨m, hr⟩, ?_⟩⟩
      cases t <;> exact ⟨rfl, rfl⟩
    · obtain ⟨t', h3, h4⟩ := NamedFields.sel h2 h
      refine ⟨t', h3, fun fb hr m => ?_⟩
      obtain ⟨p, e1, e2⟩ := h4 fb hr m
      refine ⟨.inr p, ?_⟩
      cases t <;> exact ⟨e1, e2⟩

section
variable (hl : S.Loaded) (hn : ∀ e ∈ S, (e.2.declarations.map (fun d => d.name.snakeCase)).Nodup)
include hl hn

mutual
theorem Holds.msg {x : Dir} {k : List Str × Str} {v : Val} {t : Tree} : Holds T S x k v t → ∀ c, Named T S k c →
    ∃ m : c.erase.Msg x, v = c.enc x m ∧ t = c.erase.tree m
  | .struct h1 h2 h3, _, .struct (fs := fs) g1 g2 g3 => by
    obtain ⟨rfl, rfl, rfl⟩ := Declares.unique hl hn h1 g1
    obtain ⟨m, e1, e2⟩ := HoldsMembers.msg h1.1 h3 fs g3
    exact ⟨m, by rw [e1]; rfl, by rw [e2]; rfl⟩
  | .struct h1 h2 h3, _, .choice g1 g2 g3 => by
    obtain ⟨rfl, rfl, rfl⟩ := Declares.unique hl hn h1 g1
    rw [h2] at g2; cases g2
  | .last h1 h2 h3 h4 h5, _, .struct g1 g2 g3 => by
    obtain ⟨rfl, rfl, rfl⟩ := Declares.unique hl hn h1 g1
    rw [h2] at g2; cases g2
  | .more h1 h2 h3 h4 h5 h6, _, .struct g1 g2 g3 => by
    obtain ⟨rfl, rfl, rfl⟩ := Declares.unique hl hn h1 g1
    rw [h2] at g2; cases g2
  | .last h1 h2 h3 h4 h5, _, .choice (fs := fs) g1 g2 g3 => by
    obtain ⟨rfl, rfl, rfl⟩ := Declares.unique hl hn h1 g1
    obtain ⟨t, a1, a2⟩ := NamedFields.sel (x := x) g3 h3
    obtain ⟨m, e1, e2⟩ := HoldsPayload.msg h1.1 h5 t a1
    obtain ⟨p, e3, e4⟩ := a2 false h4 m
    refine ⟨.last p, ?_, ?_⟩
    · show _ = encChain _ (NFields.encSel x fs) (NFields.encSel x fs) (.last p)
      rw [encChain, e3, e1]; rfl
    · show _ = Tree.fields (Chain.toList (Fields.treeSel fs.erase) (Fields.treeSel fs.erase) (.last p))
      rw [Chain.toList, e4, e2]
  | .more h1 h2 h3 h4 h5 h6, _, .choice (fs := fs) g1 g2 g3 => by
    obtain ⟨rfl, rfl, rfl⟩ := Declares.unique hl hn h1 g1
    obtain ⟨t, a1, a2⟩ := NamedFields.sel (x := x) g3 h3
    obtain ⟨m, e1, e2⟩ := HoldsPayload.msg h1.1 h5 t a1
    obtain ⟨p, e3, e4⟩ := a2 true h4 m
    obtain ⟨m', e5, e6⟩ := Holds.msg h6 _ (.choice g1 g2 g3)
    change Chain (fs.erase.Sel x true) (fs.erase.Sel x false) at m'
    refine ⟨.more p m', ?_, ?_⟩
    · show _ = encChain _ (NFields.encSel x fs) (NFields.encSel x fs) (.more p m')
      rw [encChain, e3, e1, e5]; rfl
    · show _ = Tree.fields (Chain.toList (Fields.treeSel fs.erase) (Fields.treeSel fs.erase) (.more p m'))
      rw [Chain.toList, e4, e2, Tree.fields.inj e6]
theorem HoldsMembers.msg {x : Dir} {ns : Namespace} {s : Schema} (hs : (ns, s) ∈ S) {fs : List Field} {ms : List (Str × Val)} {l : List (Nat × Tree)} :
    HoldsMembers T S x ns s fs ms l → ∀ N, NamedFields T S ns s fs N → ∃ m : N.erase.Struct x, ms = N.encStruct x m ∧ l = N.erase.treeStruct m
  | .nil, _, .nil => ⟨(), rfl, rfl⟩
  | .plain (f := f) hr h1 h2, _, .cons (t := t) (Fs := Fs) g1 g2 => by
    obtain ⟨a, e1, e2⟩ := HoldsType.msg hs h1 t g1
    obtain ⟨m, e3, e4⟩ := HoldsMembers.msg hs h2 Fs g2
    have : ∀ b, b = false → ∃ a' : Slot b (t.erase.Msg x), encSlot (NTy.enc x t) b a' = t.enc x a ∧ Slot.get? a' = some a :=
      fun b hb => by subst hb; exact ⟨a, rfl, rfl⟩
    obtain ⟨a', f1, f2⟩ := this _ hr
    refine ⟨(a', m), ?_, ?_⟩
    · rw [e1, e3, ← f1]; rfl
    · show _ = Fields.treeStruct (.cons f.index f.rule t.erase Fs.erase) (a', m)
      rw [treeStruct_cons, f2, e2, e4]; rfl
  | .present (f := f) hr h1 h2, _, .cons (t := t) (Fs := Fs) g1 g2 => by
    obtain ⟨a, e1, e2⟩ := HoldsType.msg hs h1 t g1
    obtain ⟨m, e3, e4⟩ := HoldsMembers.msg hs h2 Fs g2
    have : ∀ b, b = true → ∃ a' : Slot b (t.erase.Msg x), encSlot (NTy.enc x t) b a' = .some (t.enc x a) ∧ Slot.get? a' = some a :=
      fun b hb => by subst hb; exact ⟨some a, rfl, rfl⟩
    obtain ⟨a', f1, f2⟩ := this _ hr
    refine ⟨(a', m), ?_, ?_⟩
    · rw [e1, e3, ← f1]; rfl
    · show _ = Fields.treeStruct (.cons f.index f.rule t.erase Fs.erase) (a', m)
      rw [treeStruct_cons, f2, e2, e4]; rfl
  | .absent (f := f) hr h2, _, .cons (t := t) (Fs := Fs) g1 g2 => by
    obtain ⟨m, e3, e4⟩ := HoldsMembers.msg hs h2 Fs g2
    have : ∀ b, b = true → ∃ a' : Slot b (t.erase.Msg x), encSlot (NTy.enc x t) b a' = .none ∧ Slot.get? a' = none :=
      fun b hb => by subst hb; exact ⟨none, rfl, rfl⟩
    obtain ⟨a', f1, f2⟩ := this _ hr
    refine ⟨(a', m), ?_, ?_⟩
    · rw [e3, ← f1]; rfl
    · show _ = Fields.treeStruct (.cons f.index f.rule t.erase Fs.erase) (a', m)
      rw [treeStruct_cons, f2, e4]; rfl
theorem HoldsPayload.msg {x : Dir} {ns : Namespace} {s : Schema} (hs : (ns, s) ∈ S) {tv : TypeVariant} {vs : List Val} {t : Tree} :
    HoldsPayload T S x ns s tv vs t → ∀ N, NamedType T S ns s tv N → ∃ m : N.erase.Msg x, (vs = match N, m with
        | .unit, _ => []
        | .scalar sc, m => [encScalar sc m]
        | .comp c, m => [c.enc x m]) ∧ t = N.erase.tree m
  | .unit, _, .unit => ⟨(), rfl, rfl⟩
  | .other hu h, N, g => by
    obtain ⟨m, e1, e2⟩ := HoldsType.msg hs h N g
    refine ⟨m, ?_, e2⟩
    cases N with
    | unit => exact absurd (g.scalarType.2.mpr rfl) hu
    | scalar sc => rw [e1]; rfl
    | comp c => rw [e1]; rfl
theorem HoldsType.msg {x : Dir} {ns : Namespace} {s : Schema} (hs : (ns, s) ∈ S) {tv : TypeVariant} {v : Val} {t : Tree} :
    HoldsType T S x ns s tv v t → ∀ N, NamedType T S ns s tv N → ∃ m : N.erase.Msg x, v = N.enc x m ∧ t = N.erase.tree m
  | .unit, _, .unit => ⟨(), rfl, rfl⟩
  | .scalar (c := sc) v hc, N, g => by
    have := g.scalarType.1
    rw [hc] at this
    cases N with
    | unit => cases this
    | scalar sc' => cases this; exact ⟨v, rfl, rfl⟩
    | comp c => cases this
  | .bytes b, _, .bytes => ⟨b, rfl, rfl⟩
  | .string u, _, .string => ⟨u, rfl, rfl⟩
  | .units n, _, .units => ⟨n, rfl, rfl⟩
  | .units n, _, .scalars g => by cases g.scalarType.1
  | .units n, _, .array g => by cases g
  | .scalars l hc, _, .units => by cases hc
  | .scalars l hc, _, .scalars g => by
    have := g.scalarType.1
    rw [hc] at this
    cases this
    exact ⟨l, rfl, rfl⟩
  | .scalars l hc, _, .array g => by
    have := g.scalarType.1
    rw [hc] at this
    cases this
  | .array hu hc h, _, .units => absurd rfl hu
  | .array hu hc h, _, .scalars g => by
    have := g.scalarType.1
    rw [hc] at this
    cases this
  | .array hu hc h, _, .array (c := c) g => by
    obtain ⟨m, e1, e2⟩ := HoldsElems.msg hs h _ g
    exact ⟨m, by rw [e1]; rfl, by rw [e2]; rfl⟩
  | .custom h1 h2, _, .custom g1 g2 => by
    cases RefersTo.unique (hl.importNames _ hs) h1 g1
    obtain ⟨m, e1, e2⟩ := Holds.msg h2 _ g2
    exact ⟨m, e1, e2⟩
theorem HoldsElems.msg {x : Dir} {ns : Namespace} {s : Schema} (hs : (ns, s) ∈ S) {tv : TypeVariant} {vs : List Val} {l : List Tree} :
    HoldsElems T S x ns s tv vs l → ∀ N, NamedType T S ns s tv N → ∃ m : List (N.erase.Msg x), vs = m.map (N.enc x) ∧ l = m.map N.erase.tree
  | .nil, _, _ => ⟨[], rfl, rfl⟩
  | .cons h1 h2, N, g => by
    obtain ⟨a, e1, e2⟩ := HoldsType.msg hs h1 N g
    obtain ⟨m, e3, e4⟩ := HoldsElems.msg hs h2 N g
    exact ⟨a :: m, by rw [e1, e3]; rfl, by rw [e2, e4]; rfl⟩
end
end

end Typical.Gen

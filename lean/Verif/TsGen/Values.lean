import Verif.TsGen.Funcs
import Verif.Spec.JsValues
import Verif.Gen.Values

/-!
# Helper: values of generated TypeScript types represent messages
-/

namespace Typical.TsGen

open Gen (NCTy NTy NFields DeclName FieldName Ev treeStruct_cons)

variable {T : CharTable} {S : Schemas}

/-! ### Types with names exist -/

theorem namedType_array {ns : Namespace} {s : Schema} {r : SourceRange} {tv : TypeVariant} {N : NTy} (h : NamedType T S ns s tv N) :
    ∃ N', NamedType T S ns s (.array r tv) (.comp N') ∧ N'.erase = arrayOf N.erase := by
  cases N with
  | unit => cases h; exact ⟨_, .units, rfl⟩
  | scalar sc => exact ⟨_, .scalars h, rfl⟩
  | comp c => exact ⟨_, .array h, rfl⟩

mutual
theorem named_exists {k : List Str × Str} {c : CTy} : S.Denotes k c → ∃ N, Named T S k N ∧ N.erase = c
  | .struct h1 h2 h3 => by
    obtain ⟨N, h, rfl⟩ := namedFields_exists h3
    exact ⟨_, .struct h1 h2 h, rfl⟩
  | .choice h1 h2 h3 => by
    obtain ⟨N, h, rfl⟩ := namedFields_exists h3
    exact ⟨_, .choice h1 h2 h, rfl⟩
theorem namedFields_exists {ns : Namespace} {s : Schema} {fs : List Field} {Fs : Fields} : S.DenotesFields ns s fs Fs →
    ∃ N, NamedFields T S ns s fs N ∧ N.erase = Fs
  | .nil => ⟨_, .nil, rfl⟩
  | .cons h1 h2 => by
    obtain ⟨N, h, rfl⟩ := namedType_exists h1
    obtain ⟨N', h', rfl⟩ := namedFields_exists h2
    exact ⟨_, .cons h h', rfl⟩
theorem namedType_exists {ns : Namespace} {s : Schema} {v : TypeVariant} {t : Ty} : S.DenotesType ns s v t →
    ∃ N, NamedType T S ns s v N ∧ N.erase = t
  | .bool => ⟨_, .bool, rfl⟩
  | .f64 => ⟨_, .f64, rfl⟩
  | .s64 => ⟨_, .s64, rfl⟩
  | .u64 => ⟨_, .u64, rfl⟩
  | .unit => ⟨_, .unit, rfl⟩
  | .bytes => ⟨_, .bytes, rfl⟩
  | .string => ⟨_, .string, rfl⟩
  | .array h => by
    obtain ⟨N, hN, rfl⟩ := namedType_exists h
    obtain ⟨N', h', e⟩ := namedType_array hN
    exact ⟨_, h', by rw [NTy.erase, e]⟩
  | .custom h1 h2 => by
    obtain ⟨N, h, rfl⟩ := named_exists h2
    exact ⟨_, .custom h1 h, rfl⟩
end

mutual
theorem Named.denotes {k : List Str × Str} {N : NCTy} : Named T S k N → S.Denotes k N.erase
  | .struct h1 h2 h3 => .struct h1 h2 (NamedFields.denotes h3)
  | .choice h1 h2 h3 => .choice h1 h2 (NamedFields.denotes h3)
theorem NamedFields.denotes {ns : Namespace} {s : Schema} {fs : List Field} {N : NFields} : NamedFields T S ns s fs N →
    S.DenotesFields ns s fs N.erase
  | .nil => .nil
  | .cons h1 h2 => .cons (NamedType.denotes h1) (NamedFields.denotes h2)
theorem NamedType.denotes {ns : Namespace} {s : Schema} {v : TypeVariant} {N : NTy} : NamedType T S ns s v N →
    S.DenotesType ns s v N.erase
  | .bool => .bool
  | .f64 => .f64
  | .s64 => .s64
  | .u64 => .u64
  | .unit => .unit
  | .bytes => .bytes
  | .string => .string
  | .units => .array .unit
  | .scalars h => .array (NamedType.denotes h)
  | .array h => .array (NamedType.denotes h)
  | .custom h1 h2 => .custom h1 (Named.denotes h2)
end

theorem NamedType.scalarType {ns : Namespace} {s : Schema} {tv : TypeVariant} {N : NTy} : NamedType T S ns s tv N →
    (Gen.scalarType tv = match N with | .scalar sc => some sc | _ => none) ∧ (tv = .unit ↔ N = .unit)
  | .bool => ⟨rfl, by simp⟩
  | .f64 => ⟨rfl, by simp⟩
  | .s64 => ⟨rfl, by simp⟩
  | .u64 => ⟨rfl, by simp⟩
  | .unit => ⟨rfl, by simp⟩
  | .bytes => ⟨rfl, by simp⟩
  | .string => ⟨rfl, by simp⟩
  | .units => ⟨rfl, by simp⟩
  | .scalars h => ⟨rfl, by simp⟩
  | .array h => ⟨rfl, by simp⟩
  | .custom h1 h2 => ⟨rfl, by simp⟩

theorem jsScalar_eq (s : Scalar) (v : s.Val) : jsScalar s v = encScalar s v := by cases s <;> rfl

theorem encScalar_ne_undef (s : Scalar) (v : s.Val) : encScalar s v ≠ .undef := by
  cases s with
  | f64 => show encF64 _ ≠ _; unfold encF64; split <;> nofun
  | _ => nofun

/-! ### What the code returns -/

theorem NamedFields.names_eq {ns : Namespace} {s : Schema} : {fs : List Field} → {N : NFields} → NamedFields T S ns s fs N →
    N.names = fs.map (fun f => tsCamel T f.name)
  | _, _, .nil => rfl
  | _, _, .cons _ h => by rw [NFields.names, List.map_cons, NamedFields.names_eq h]; rfl

theorem jsElems {α : Type} {x : Dir} {H : Part} {ns : Namespace} {s : Schema} {tv : TypeVariant} {R : α → Val → Prop} (g : α → Tree)
    (h : ∀ a v, R a v → JsType T S x H ns s tv v (g a)) {l : List α} {vs : List Val} (hl : List.Forall₂ R l vs) :
    JsElems T S x H ns s tv vs (l.map g) := by
  induction hl with
  | nil => exact .nil
  | cons h1 _ ih => exact .cons (h _ _ h1) ih

mutual
theorem Named.js {H : Part} {k : List Str × Str} {c : NCTy} : Named T S k c → (m : c.erase.Msg .inn) → (v : Val) → cRep .inn H c m v →
    JsHolds T S .inn H k v (c.erase.tree m)
  | .struct (fs := fs) h1 h2 h3, m, v, hm => by
    change fs.erase.Struct .inn at m
    obtain ⟨o, rfl, e2, e3⟩ := hm
    exact .struct h1 h2 (fun _ => by rw [e2 rfl, h3.names_eq]) (NamedFields.jsMembers h3 m o e3)
  | .choice (d := d) (fs := fs) (ns := ns) h1 h2 h3, m, v, hm => by
    change Chain (fs.erase.Sel .inn true) (fs.erase.Sel .inn false) at m
    have hs := fun {fb : Bool} (p : fs.erase.Sel .inn fb) o ho => NamedFields.jsSel (H := H) h3 p o ho
    change chainRep (selRep .inn H fs) (selRep .inn H fs) m v at hm
    show JsHolds T S .inn H k v (.fields (Chain.toList (Fields.treeSel fs.erase) (Fields.treeSel fs.erase) m))
    clear h3
    induction m generalizing v with
    | last b =>
      obtain ⟨o, rfl, ho⟩ := hm
      obtain ⟨f, hr, hf, w, e1, e2, hp⟩ := hs b o ho
      rw [Chain.toList, show Fields.treeSel fs.erase b = (f.index, _) from Prod.ext e2 rfl]
      exact .last h1 h2 hf hr e1 hp
    | more a rest ih =>
      obtain ⟨o, w', rfl, ho, hw, hrest⟩ := hm
      obtain ⟨f, hr, hf, w, e1, e2, hp⟩ := hs a o ho
      rw [Chain.toList, show Fields.treeSel fs.erase a = (f.index, _) from Prod.ext e2 rfl]
      exact .more h1 h2 hf hr e1 hp hw (ih _ hrest)
theorem NamedFields.jsMembers {H : Part} {ns : Namespace} {s : Schema} {fs : List Field} {N : NFields} : NamedFields T S ns s fs N →
    (m : N.erase.Struct .inn) → (o : List (Str × Val)) → sRep .inn H N m o → JsMembers T S .inn H ns s fs o (N.erase.treeStruct m)
  | .nil, _, _, _ => .nil
  | .cons (f := f) (t := t) (fs := fs) (Fs := Fs) h1 h2, m, o, hm => by
    change Slot (f.rule.mayOmit .inn) (t.erase.Msg .inn) × Fs.erase.Struct .inn at m
    obtain ⟨a, m⟩ := m
    obtain ⟨⟨v, e1, e2⟩, e3⟩ := hm
    show JsMembers T S .inn H ns s (f :: fs) o (Fields.treeStruct (.cons f.index f.rule t.erase Fs.erase) (a, m))
    rw [treeStruct_cons]
    change slotRep (tRep .inn H t) (f.rule.mayOmit .inn) a v at e2
    generalize hb : f.rule.mayOmit .inn = b at a e2 ⊢
    cases b with
    | false => exact .present e1 (NamedType.js h1 a v e2) (NamedFields.jsMembers h2 m o e3)
    | true =>
      change Option (t.erase.Msg .inn) at a
      cases a with
      | none => cases e2; exact .absent e1 hb (NamedFields.jsMembers h2 m o e3)
      | some a => exact .present e1 (NamedType.js h1 a v e2) (NamedFields.jsMembers h2 m o e3)
theorem NamedFields.jsSel {H : Part} {fb : Bool} {ns : Namespace} {s : Schema} {fs : List Field} {N : NFields} : NamedFields T S ns s fs N →
    (p : N.erase.Sel .inn fb) → (o : List (Str × Val)) → selRep .inn H N p o → ∃ f, f.rule.hasFallback .inn = fb ∧ JsSelects T fs f o .inn ∧
      ∃ v, member (tsCamel T f.name) o = some v ∧
      (N.erase.treeSel p).1 = f.index ∧ JsType T S .inn H ns s f.type.variant v (N.erase.treeSel p).2
  | .nil, p, _, _ => p.elim
  | .cons (f := f) (t := t) (fs := fs) (Fs := Fs) h1 h2, p, o, hp => by
    change Guard (f.rule.hasFallback .inn = fb) (t.erase.Msg .inn) ⊕ Fs.erase.Sel .inn fb at p
    cases p with
    | inl p =>
      obtain ⟨⟨v, e1, e2⟩, e3⟩ := hp
      obtain ⟨e3, e4⟩ := e3 rfl
      refine ⟨f, p.ok, ⟨List.mem_cons_self, e4, ?_⟩, v, e1, rfl, NamedType.js h1 p.val v e2⟩
      rw [e3, p.ok]; rfl
    | inr p =>
      obtain ⟨g, h3, ⟨h4, h5⟩, h6⟩ := NamedFields.jsSel h2 p o hp.2
      exact ⟨g, h3, ⟨List.mem_cons_of_mem _ h4, h5⟩, h6⟩
theorem NamedType.js {H : Part} {ns : Namespace} {s : Schema} {tv : TypeVariant} {N : NTy} : NamedType T S ns s tv N →
    (m : N.erase.Msg .inn) → (v : Val) → tRep .inn H N m v → JsType T S .inn H ns s tv v (N.erase.tree m)
  | .bool, m, _, rfl => .scalar (c := .bool) m rfl
  | .f64, m, _, rfl => .scalar (c := .f64) m rfl
  | .s64, m, _, rfl => .scalar (c := .s64) m rfl
  | .u64, m, _, rfl => .scalar (c := .u64) m rfl
  | .unit, _, _, rfl => .unit
  | .bytes, m, _, ⟨_, rfl, h⟩ => .bytes h
  | .string, m, _, rfl => .string m
  | .units, m, _, ⟨_, rfl, h⟩ => .units m h
  | .scalars (sc := sc) h, m, _, ⟨_, rfl, hr⟩ => .scalars m h.scalarType.1 (by rw [hr, show jsScalar sc = encScalar sc from funext (jsScalar_eq sc)])
  | .array h, m, _, ⟨_, _, rfl, hr, hl⟩ => .array (fun g => by cases h.scalarType.2.mp g) h.scalarType.1 hr
      (jsElems _ (fun a v hv => NamedType.js h a v hv) hl)
  | .custom h1 h2, m, v, h => .custom h1 (Named.js h2 m v h)
end

/-! ### What the code is given -/

theorem NamedFields.js_sel {H : Part} {ns : Namespace} {s : Schema} {f : Field} {o : List (Str × Val)} : {fs : List Field} → {N : NFields} →
    NamedFields T S ns s fs N → fs.find? (fun g => hasProperty (o.map (·.1)) (tsCamel T g.name)) = some f →
    ∃ t, NamedType T S ns s f.type.variant t ∧ ∀ (fb : Bool), f.rule.hasFallback .out = fb → ∀ (m : t.erase.Msg .out) (v : Val),
      member (tsCamel T f.name) o = some v → tRep .out H t m v → ∃ p : N.erase.Sel .out fb,
      selRep .out H N p o ∧ N.erase.treeSel p = (f.index, t.erase.tree m)
  | _, _, .nil, h => by cases h
  | _, _, .cons (f := g) (t := t) h1 h2, h => by
    rw [List.find?_cons] at h
    split at h
    · cases h
      exact ⟨t, h1, fun fb hr m v e1 e2 => ⟨.inl ⟨m, hr⟩, ⟨⟨v, e1, e2⟩, nofun⟩, rfl⟩⟩
    · next hg =>
      obtain ⟨t', h3, h4⟩ := NamedFields.js_sel (H := H) h2 h
      refine ⟨t', h3, fun fb hr m v e1 e2 => ?_⟩
      obtain ⟨p, e3, e4⟩ := h4 fb hr m v e1 e2
      exact ⟨.inr p, ⟨fun _ => hg, e3⟩, e4⟩

section
variable (hl : S.Loaded) (hn : ∀ e ∈ S, (e.2.declarations.map (fun d => d.name.snakeCase)).Nodup)
include hl hn

mutual
theorem JsHolds.msg {H : Part} {k : List Str × Str} {v : Val} {t : Tree} : JsHolds T S .out H k v t → ∀ c, Named T S k c →
    ∃ m : c.erase.Msg .out, cRep .out H c m v ∧ t = c.erase.tree m
  | .struct h1 h2 _ h3, _, .struct (fs := fs) g1 g2 g3 => by
    obtain ⟨rfl, rfl, rfl⟩ := Declares.unique hl hn h1 g1
    obtain ⟨m, e1, e2⟩ := JsMembers.msg h1.1 h3 fs g3
    exact ⟨m, ⟨_, rfl, nofun, e1⟩, by rw [e2]; rfl⟩
  | .struct h1 h2 _ h3, _, .choice g1 g2 g3 => by
    obtain ⟨rfl, rfl, rfl⟩ := Declares.unique hl hn h1 g1
    rw [h2] at g2; cases g2
  | .last h1 h2 h3 h4 h5 h6, _, .struct g1 g2 g3 => by
    obtain ⟨rfl, rfl, rfl⟩ := Declares.unique hl hn h1 g1
    rw [h2] at g2; cases g2
  | .more h1 h2 h3 h4 h5 h6 h7 h8, _, .struct g1 g2 g3 => by
    obtain ⟨rfl, rfl, rfl⟩ := Declares.unique hl hn h1 g1
    rw [h2] at g2; cases g2
  | .last h1 h2 h3 h4 h5 h6, _, .choice (fs := fs) g1 g2 g3 => by
    obtain ⟨rfl, rfl, rfl⟩ := Declares.unique hl hn h1 g1
    obtain ⟨t, a1, a2⟩ := NamedFields.js_sel (H := H) g3 h3
    obtain ⟨m, e1, e2⟩ := JsType.msg h1.1 h6 t a1
    obtain ⟨p, e3, e4⟩ := a2 false h4 m _ h5 e1
    refine ⟨.last p, ⟨_, rfl, e3⟩, ?_⟩
    show _ = Tree.fields (Chain.toList (Fields.treeSel fs.erase) (Fields.treeSel fs.erase) (.last p))
    rw [Chain.toList, e4, e2]
  | .more h1 h2 h3 h4 h5 h6 h7 h8, _, .choice (fs := fs) g1 g2 g3 => by
    obtain ⟨rfl, rfl, rfl⟩ := Declares.unique hl hn h1 g1
    obtain ⟨t, a1, a2⟩ := NamedFields.js_sel (H := H) g3 h3
    obtain ⟨m, e1, e2⟩ := JsType.msg h1.1 h6 t a1
    obtain ⟨p, e3, e4⟩ := a2 true h4 m _ h5 e1
    obtain ⟨m', e5, e6⟩ := JsHolds.msg h8 _ (.choice g1 g2 g3)
    change Chain (fs.erase.Sel .out true) (fs.erase.Sel .out false) at m'
    refine ⟨.more p m', ⟨_, _, rfl, e3, h7, e5⟩, ?_⟩
    show _ = Tree.fields (Chain.toList (Fields.treeSel fs.erase) (Fields.treeSel fs.erase) (.more p m'))
    rw [Chain.toList, e4, e2, Tree.fields.inj e6]
theorem JsMembers.msg {H : Part} {ns : Namespace} {s : Schema} (hs : (ns, s) ∈ S) {fs : List Field} {o : List (Str × Val)} {l : List (Nat × Tree)} :
    JsMembers T S .out H ns s fs o l → ∀ N, NamedFields T S ns s fs N → ∃ m : N.erase.Struct .out, sRep .out H N m o ∧ l = N.erase.treeStruct m
  | .nil, _, .nil => ⟨(), trivial, rfl⟩
  | .present (f := f) h0 h1 h2, _, .cons (t := t) (Fs := Fs) g1 g2 => by
    obtain ⟨a, e1, e2⟩ := JsType.msg hs h1 t g1
    obtain ⟨m, e3, e4⟩ := JsMembers.msg hs h2 Fs g2
    have : ∀ b, ∃ a' : Slot b (t.erase.Msg .out), slotRep (tRep .out H t) b a' _ ∧ Slot.get? a' = some a :=
      fun b => by cases b; exacts [⟨a, e1, rfl⟩, ⟨some a, e1, rfl⟩]
    obtain ⟨a', f1, f2⟩ := this (f.rule.mayOmit .out)
    refine ⟨(a', m), ⟨⟨_, h0, f1⟩, e3⟩, ?_⟩
    show _ = Fields.treeStruct (.cons f.index f.rule t.erase Fs.erase) (a', m)
    rw [treeStruct_cons, f2, e2, e4]; rfl
  | .absent (f := f) h0 hr h2, _, .cons (t := t) (Fs := Fs) g1 g2 => by
    obtain ⟨m, e3, e4⟩ := JsMembers.msg hs h2 Fs g2
    have : ∀ b, b = true → ∃ a' : Slot b (t.erase.Msg .out), slotRep (tRep .out H t) b a' .undef ∧ Slot.get? a' = none :=
      fun b hb => by subst hb; exact ⟨none, rfl, rfl⟩
    obtain ⟨a', f1, f2⟩ := this _ hr
    refine ⟨(a', m), ⟨⟨_, h0, f1⟩, e3⟩, ?_⟩
    show _ = Fields.treeStruct (.cons f.index f.rule t.erase Fs.erase) (a', m)
    rw [treeStruct_cons, f2, e4]; rfl
theorem JsType.msg {H : Part} {ns : Namespace} {s : Schema} (hs : (ns, s) ∈ S) {tv : TypeVariant} {v : Val} {t : Tree} :
    JsType T S .out H ns s tv v t → ∀ N, NamedType T S ns s tv N → ∃ m : N.erase.Msg .out, tRep .out H N m v ∧ t = N.erase.tree m
  | .unit, _, .unit => ⟨(), rfl, rfl⟩
  | .scalar (c := sc) v hc, N, g => by
    have := g.scalarType.1
    rw [hc] at this
    cases N with
    | unit => cases this
    | scalar sc' => cases this; exact ⟨v, jsScalar_eq sc v, rfl⟩
    | comp c => cases this
  | .bytes (b := b) h, _, .bytes => ⟨b, ⟨_, rfl, h⟩, rfl⟩
  | .string u, _, .string => ⟨u, rfl, rfl⟩
  | .units n h, _, .units => ⟨n, ⟨_, rfl, h⟩, rfl⟩
  | .units n _, _, .scalars g => by cases g.scalarType.1
  | .units n _, _, .array g => by cases g
  | .scalars l hc _, _, .units => by cases hc
  | .scalars (c := sc) l hc h, _, .scalars g => by
    have := g.scalarType.1
    rw [hc] at this
    cases this
    exact ⟨l, ⟨_, rfl, by rw [h, show jsScalar sc = encScalar sc from funext (jsScalar_eq sc)]⟩, rfl⟩
  | .scalars l hc _, _, .array g => by
    have := g.scalarType.1
    rw [hc] at this
    cases this
  | .array hu hc _ h, _, .units => absurd rfl hu
  | .array hu hc _ h, _, .scalars g => by
    have := g.scalarType.1
    rw [hc] at this
    cases this
  | .array hu hc hr h, _, .array (c := c) g => by
    obtain ⟨m, e1, e2⟩ := JsElems.msg hs h _ g
    exact ⟨m, ⟨_, _, rfl, hr, e1⟩, by rw [e2]; rfl⟩
  | .custom h1 h2, _, .custom g1 g2 => by
    cases RefersTo.unique (hl.importNames _ hs) h1 g1
    obtain ⟨m, e1, e2⟩ := JsHolds.msg h2 _ g2
    exact ⟨m, e1, e2⟩
theorem JsElems.msg {H : Part} {ns : Namespace} {s : Schema} (hs : (ns, s) ∈ S) {tv : TypeVariant} {vs : List Val} {l : List Tree} :
    JsElems T S .out H ns s tv vs l → ∀ N, NamedType T S ns s tv N →
    ∃ m : List (N.erase.Msg .out), List.Forall₂ (tRep .out H N) m vs ∧ l = m.map N.erase.tree
  | .nil, _, _ => ⟨[], .nil, rfl⟩
  | .cons h1 h2, N, g => by
    obtain ⟨a, e1, e2⟩ := JsType.msg hs h1 N g
    obtain ⟨m, e3, e4⟩ := JsElems.msg hs h2 N g
    exact ⟨a :: m, .cons e1 e3, by rw [e2, e4]; rfl⟩
end
end

end Typical.TsGen

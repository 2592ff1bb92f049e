import Verif.TsGen.Values

/-!
# Helper: every message is the content of a JavaScript value
-/

namespace Typical.TsGen

open Gen (NCTy NTy NFields DeclName FieldName Ev treeStruct_cons)

variable {T : CharTable} {S : Schemas}

/-! ### Larger heaps -/

section
variable {x : Dir} {H H' : Part} (hle : H.Le H')
include hle

mutual
theorem JsHolds.mono {k : List Str × Str} {v : Val} {t : Tree} : JsHolds T S x H k v t → JsHolds T S x H' k v t
  | .struct h1 h2 h3 h4 => .struct h1 h2 h3 (JsMembers.mono h4)
  | .last h1 h2 h3 h4 h5 h6 => .last h1 h2 h3 h4 h5 (JsType.mono h6)
  | .more h1 h2 h3 h4 h5 h6 h7 h8 => .more h1 h2 h3 h4 h5 (JsType.mono h6) h7 (JsHolds.mono h8)
theorem JsMembers.mono {ns : Namespace} {s : Schema} {fs : List Field} {o : List (Str × Val)} {l : List (Nat × Tree)} :
    JsMembers T S x H ns s fs o l → JsMembers T S x H' ns s fs o l
  | .nil => .nil
  | .present h1 h2 h3 => .present h1 (JsType.mono h2) (JsMembers.mono h3)
  | .absent h1 h2 h3 => .absent h1 h2 (JsMembers.mono h3)
theorem JsType.mono {ns : Namespace} {s : Schema} {tv : TypeVariant} {v : Val} {t : Tree} : JsType T S x H ns s tv v t → JsType T S x H' ns s tv v t
  | .unit => .unit
  | .scalar v h => .scalar v h
  | .bytes h => .bytes (hle _ _ h)
  | .string u => .string u
  | .units n h => .units n (hle _ _ h)
  | .scalars l h1 h2 => .scalars l h1 (hle _ _ h2)
  | .array h1 h2 h3 h4 => .array h1 h2 (hle _ _ h3) (JsElems.mono h4)
  | .custom h1 h2 => .custom h1 (JsHolds.mono h2)
theorem JsElems.mono {ns : Namespace} {s : Schema} {tv : TypeVariant} {vs : List Val} {l : List Tree} :
    JsElems T S x H ns s tv vs l → JsElems T S x H' ns s tv vs l
  | .nil => .nil
  | .cons h1 h2 => .cons (JsType.mono h1) (JsElems.mono h2)
end
end

theorem prefix_le {h h' : List Obj} (hp : h <+: h') : Part.Le (fun r => h[r]?) (fun r => h'[r]?) := fun _ _ hk => prefix_get hp hk

theorem member_append_new {name : Str} {v : Val} {o : List (Str × Val)} : {pre : List (Str × Val)} → name ∉ pre.map (·.1) →
    member name (pre ++ (name, v) :: o) = some v
  | [], _ => by simp [member]
  | (y, w) :: pre, h => by
    have h' : y ≠ name ∧ name ∉ pre.map (·.1) := by
      rw [List.map_cons, List.mem_cons, not_or] at h
      exact ⟨fun e => h.1 e.symm, h.2⟩
    rw [List.cons_append, member, if_neg h'.1]
    exact member_append_new h'.2

/-- An object which has just the property for a field, and perhaps the fallback, stands for this field. -/
theorem find_field {keys : List Str} {f : Field} : {fs : List Field} → f ∈ fs → (fs.map (fun g => tsCamel T g.name)).Nodup →
    tsCamel T f.name ∈ keys → (∀ g ∈ fs, tsCamel T g.name ∈ keys → tsCamel T g.name = tsCamel T f.name) →
    (∀ g ∈ fs, ¬ IsWord objectPrototype (tsCamel T g.name)) →
    fs.find? (fun g => hasProperty keys (tsCamel T g.name)) = some f
  | g :: fs, hf, hn, hk, hkeys, hp => by
    have hn' := List.nodup_cons.mp hn
    have hgp := hp g List.mem_cons_self
    have hin : ∀ name, ¬ IsWord objectPrototype name → hasProperty keys name = keys.contains name := by
      intro name h
      unfold hasProperty
      rw [Bool.or_eq_left_iff_imp]
      intro h'
      obtain ⟨w, h1, h2⟩ := List.any_eq_true.mp h'
      exact absurd ⟨w, h1, (beq_iff_eq.mp h2).symm⟩ h
    rcases List.mem_cons.mp hf with rfl | hf'
    · rw [List.find?_cons_of_pos]
      rw [hin _ hgp, List.contains_iff_mem]
      exact hk
    · rw [List.find?_cons_of_neg]
      · exact find_field hf' hn'.2 hk (fun g' hg' => hkeys g' (List.mem_cons_of_mem _ hg')) (fun g' hg' => hp g' (List.mem_cons_of_mem _ hg'))
      · rw [hin _ hgp, List.contains_iff_mem]
        intro h
        have := hkeys g List.mem_cons_self h
        exact hn'.1 (List.mem_map.mpr ⟨f, hf', this.symm⟩)

/-- The heap with one more object. -/
theorem get_push (h : List Obj) (o : Obj) : (h ++ [o])[h.length]? = some o := by simp

section
variable (hn : ∀ e ∈ S, ∀ d ∈ e.2.declarations, FieldNames T d.fields)
  (hp : ∀ e ∈ S, ∀ d ∈ e.2.declarations, d.variant = .choice → ∀ f ∈ d.fields, ¬ IsWord objectPrototype (tsCamel T f.name))
include hn hp

theorem elems_exist {ns : Namespace} {s : Schema} {tv : TypeVariant} {α : Type} (g : α → Tree)
    (ih : ∀ (a : α) (h : List Obj), ∃ v h', h <+: h' ∧ JsType T S .out (fun r => h'[r]?) ns s tv v (g a)) :
    (l : List α) → (h : List Obj) → ∃ vs h', h <+: h' ∧ JsElems T S .out (fun r => h'[r]?) ns s tv vs (l.map g)
  | [], h => ⟨[], h, List.prefix_refl _, .nil⟩
  | a :: l, h => by
    obtain ⟨v, h1, p1, e1⟩ := ih a h
    obtain ⟨vs, h2, p2, e2⟩ := elems_exist g ih l h1
    exact ⟨v :: vs, h2, p1.trans p2, .cons (e1.mono (prefix_le p2)) e2⟩

mutual
theorem Named.exist {k : List Str × Str} {c : NCTy} : Named T S k c → (m : c.erase.Msg .out) → (h : List Obj) →
    ∃ v h', h <+: h' ∧ JsHolds T S .out (fun r => h'[r]?) k v (c.erase.tree m)
  | .struct (d := d) (fs := fs) h1 h2 h3, m, h => by
    change fs.erase.Struct .out at m
    obtain ⟨o, h', p, ho, hm⟩ := NamedFields.exist_members h3 m h
    refine ⟨.obj o, h', p, .struct h1 h2 nofun ?_⟩
    exact hm [] (fun _ _ => List.not_mem_nil) (hn _ h1.1 _ h1.2.1).nodup
  | .choice (d := d) (fs := fs) (ns := ns) (s := s) h1 h2 h3, m, h => by
    change Chain (fs.erase.Sel .out true) (fs.erase.Sel .out false) at m
    have hs := fun {fb : Bool} (p : fs.erase.Sel .out fb) (h : List Obj) => NamedFields.exist_sel h3 p h
    have hN := hn _ h1.1 _ h1.2.1
    have hP := hp _ h1.1 _ h1.2.1 h2
    have hfb : ∀ f ∈ d.fields, tsCamel T f.name ≠ "$fallback".toList := fun f hf e => hN.other f hf (by rw [e]; simp)
    show ∃ v h', h <+: h' ∧ JsHolds T S .out (fun r => h'[r]?) k v (.fields (Chain.toList (Fields.treeSel fs.erase) (Fields.treeSel fs.erase) m))
    clear h3
    induction m generalizing h with
    | last b =>
      obtain ⟨f, v, h', p, hf, hr, e, hv⟩ := hs b h
      rw [Chain.toList, show Fields.treeSel fs.erase b = (f.index, _) from Prod.ext e rfl]
      refine ⟨.obj [(tsCamel T f.name, v)], h', p, .last h1 h2 ?_ hr (by simp [member]) hv⟩
      exact find_field hf hN.nodup (by simp) (fun g hg hk => by simpa using hk) hP
    | more a rest ih =>
      obtain ⟨f, v, h', p, hf, hr, e, hv⟩ := hs a h
      obtain ⟨w, h'', p', hw⟩ := ih h'
      rw [Chain.toList, show Fields.treeSel fs.erase a = (f.index, _) from Prod.ext e rfl]
      refine ⟨.obj [(tsCamel T f.name, v), ("$fallback".toList, w)], h'', p.trans p',
        .more h1 h2 ?_ hr (by simp [member]) (hv.mono (prefix_le p')) ?_ hw⟩
      · refine find_field hf hN.nodup (by simp) (fun g hg hk => ?_) hP
        simp only [List.map_cons, List.map_nil, List.mem_cons, List.not_mem_nil, or_false] at hk
        exact hk.resolve_right (hfb g hg)
      · rw [member, if_neg (hfb f hf), member, if_pos rfl]
theorem NamedFields.exist_members {ns : Namespace} {s : Schema} {fs : List Field} {N : NFields} : NamedFields T S ns s fs N →
    (m : N.erase.Struct .out) → (h : List Obj) → ∃ o h', h <+: h' ∧ o.map (·.1) = fs.map (fun f => tsCamel T f.name) ∧
      ∀ pre : List (Str × Val), (∀ f ∈ fs, tsCamel T f.name ∉ pre.map (·.1)) → (fs.map (fun f => tsCamel T f.name)).Nodup →
        JsMembers T S .out (fun r => h'[r]?) ns s fs (pre ++ o) (N.erase.treeStruct m)
  | .nil, _, h => ⟨[], h, List.prefix_refl _, rfl, fun _ _ _ => .nil⟩
  | .cons (f := f) (t := t) (fs := fs) (Fs := Fs) h1 h2, m, h => by
    change Slot (f.rule.mayOmit .out) (t.erase.Msg .out) × Fs.erase.Struct .out at m
    obtain ⟨a, m⟩ := m
    have key : ∃ v h', h <+: h' ∧ ((∃ a', Slot.get? a = some a' ∧ JsType T S .out (fun r => h'[r]?) ns s f.type.variant v (t.erase.tree a')) ∨
        (v = .undef ∧ f.rule.mayOmit .out = true ∧ Slot.get? a = none)) := by
      generalize hb : f.rule.mayOmit .out = b at a
      cases b with
      | false =>
        obtain ⟨v, h', p, e⟩ := NamedType.exist h1 a h
        exact ⟨v, h', p, .inl ⟨a, rfl, e⟩⟩
      | true =>
        change Option (t.erase.Msg .out) at a
        cases a with
        | none => exact ⟨.undef, h, List.prefix_refl _, .inr ⟨rfl, rfl, rfl⟩⟩
        | some a =>
          obtain ⟨v, h', p, e⟩ := NamedType.exist h1 a h
          exact ⟨v, h', p, .inl ⟨a, rfl, e⟩⟩
    obtain ⟨v, h', p, hv⟩ := key
    obtain ⟨o, h'', p', ho, hm⟩ := NamedFields.exist_members h2 m h'
    refine ⟨(tsCamel T f.name, v) :: o, h'', p.trans p', by rw [List.map_cons, List.map_cons, ho], fun pre hpre hnd => ?_⟩
    have hnd' := List.nodup_cons.mp hnd
    have hrest := hm (pre ++ [(tsCamel T f.name, v)]) (fun g hg => by
      rw [List.map_append, List.mem_append, not_or]
      refine ⟨hpre g (List.mem_cons_of_mem _ hg), fun hh => ?_⟩
      simp only [List.map_cons, List.map_nil, List.mem_cons, List.not_mem_nil, or_false] at hh
      exact hnd'.1 (List.mem_map.mpr ⟨g, hg, hh⟩)) hnd'.2
    rw [List.append_assoc, List.singleton_append] at hrest
    have hget : member (tsCamel T f.name) (pre ++ (tsCamel T f.name, v) :: o) = some v := member_append_new (hpre f List.mem_cons_self)
    show JsMembers T S .out _ ns s (f :: fs) _ (Fields.treeStruct (.cons f.index f.rule t.erase Fs.erase) (a, m))
    rw [treeStruct_cons]
    rcases hv with ⟨a', e1, e2⟩ | ⟨rfl, e1, e2⟩
    · rw [e1]; exact .present hget (e2.mono (prefix_le p')) hrest
    · rw [e2]; exact .absent hget e1 hrest
theorem NamedFields.exist_sel {fb : Bool} {ns : Namespace} {s : Schema} {fs : List Field} {N : NFields} : NamedFields T S ns s fs N →
    (p : N.erase.Sel .out fb) → (h : List Obj) → ∃ f v h', h <+: h' ∧ f ∈ fs ∧ f.rule.hasFallback .out = fb ∧
      (N.erase.treeSel p).1 = f.index ∧ JsType T S .out (fun r => h'[r]?) ns s f.type.variant v (N.erase.treeSel p).2
  | .nil, p, _ => p.elim
  | .cons (f := f) (t := t) (fs := fs) (Fs := Fs) h1 h2, p, h => by
    change Guard (f.rule.hasFallback .out = fb) (t.erase.Msg .out) ⊕ Fs.erase.Sel .out fb at p
    cases p with
    | inl p =>
      obtain ⟨v, h', q, e⟩ := NamedType.exist h1 p.val h
      exact ⟨f, v, h', q, List.mem_cons_self, p.ok, rfl, e⟩
    | inr p =>
      obtain ⟨g, v, h', q, e1, e2, e3, e4⟩ := NamedFields.exist_sel h2 p h
      exact ⟨g, v, h', q, List.mem_cons_of_mem _ e1, e2, e3, e4⟩
theorem NamedType.exist {ns : Namespace} {s : Schema} {tv : TypeVariant} {N : NTy} : NamedType T S ns s tv N →
    (m : N.erase.Msg .out) → (h : List Obj) → ∃ v h', h <+: h' ∧ JsType T S .out (fun r => h'[r]?) ns s tv v (N.erase.tree m)
  | .bool, m, h => ⟨_, h, List.prefix_refl _, .scalar (c := .bool) m rfl⟩
  | .f64, m, h => ⟨_, h, List.prefix_refl _, .scalar (c := .f64) m rfl⟩
  | .s64, m, h => ⟨_, h, List.prefix_refl _, .scalar (c := .s64) m rfl⟩
  | .u64, m, h => ⟨_, h, List.prefix_refl _, .scalar (c := .u64) m rfl⟩
  | .unit, _, h => ⟨_, h, List.prefix_refl _, .unit⟩
  | .bytes, m, h => ⟨_, h ++ [.buf m], List.prefix_append _ _, .bytes (get_push h _)⟩
  | .string, m, h => ⟨_, h, List.prefix_refl _, .string m⟩
  | .units, m, h => ⟨_, h ++ [.arr (List.replicate (UInt64.toNat m) .null)], List.prefix_append _ _, .units m (get_push h _)⟩
  | .scalars (sc := sc) g, m, h => ⟨_, h ++ [.arr (List.map (jsScalar sc) m)], List.prefix_append _ _, .scalars m g.scalarType.1 (get_push h _)⟩
  | .array g, m, h => by
    obtain ⟨vs, h', p, e⟩ := elems_exist hn hp _ (fun a h => NamedType.exist g a h) m h
    exact ⟨_, h' ++ [.arr vs], p.trans (List.prefix_append _ _), .array (fun e => by cases g.scalarType.2.mp e) g.scalarType.1 (get_push h' _)
      (e.mono (prefix_le (List.prefix_append _ _)))⟩
  | .custom g1 g2, m, h => by
    obtain ⟨v, h', p, e⟩ := Named.exist g2 m h
    exact ⟨v, h', p, .custom g1 e⟩
end
end

end Typical.TsGen

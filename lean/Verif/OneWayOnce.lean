import Verif.OnceKind
import Verif.Front.OneWayLemmas

/-!
# Helper: a reader meets each field of a struct once, if no choice became a struct
-/

namespace Typical

mutual
/-- Shared fields have values of the same shape, and no choice became a struct, at all depths. -/
def CTy.Forward : CTy → CTy → Prop
  | .bytes => fun r => r = .bytes
  | .string => fun r => r = .string
  | .units => fun r => r = .units
  | .scalars s => fun r => r = .scalars s
  | .array c => fun | .array c' => CTy.Forward c c' | _ => False
  | .struct fs => fun | .struct gs => Fields.Forward fs gs | .choice gs => Fields.Forward fs gs | _ => False
  | .choice fs => fun | .choice gs => Fields.Forward fs gs | _ => False

def Ty.Forward : Ty → Ty → Prop
  | .unit => fun r => r = .unit
  | .scalar s => fun r => r = .scalar s
  | .comp c => fun | .comp c' => CTy.Forward c c' | _ => False

def Fields.Forward : Fields → Fields → Prop
  | .nil, _ => True
  | .cons i _ t rest, gs => (∀ r' t', gs.lookup i = some (r', t') → Ty.Forward t t') ∧ Fields.Forward rest gs
end

mutual
theorem CTy.once_forward {d : Dir} : (w : CTy) → w.WF → (r : CTy) → r.WF → w.Forward r →
    (m : w.Msg d) → r.Once (w.tree m)
  | .bytes, _, r, _, h, m => by simp only [CTy.Forward] at h; subst h; trivial
  | .string, _, r, _, h, m => by simp only [CTy.Forward] at h; subst h; trivial
  | .units, _, r, _, h, m => by simp only [CTy.Forward] at h; subst h; trivial
  | .scalars s, _, r, _, h, m => by simp only [CTy.Forward] at h; subst h; trivial
  | .array c, hw, r, hr, h, m => by
    cases r <;> simp only [CTy.Forward] at h
    rename_i c'
    simp only [CTy.WF] at hw hr
    simp only [CTy.tree, CTy.Once]
    intro t ht
    obtain ⟨x, _, rfl⟩ := List.mem_map.1 ht
    exact CTy.once_forward c hw c' hr h x
  | .struct fs, hw, r, hr, h, m => by
    simp only [CTy.WF] at hw
    have hn := Fields.treeStruct_nodup fs hw.1 m
    have hone := fun i => filter_length_le_one hn i
    cases r <;> simp only [CTy.Forward] at h
    · rename_i gs
      simp only [CTy.WF] at hr
      simp only [CTy.tree, CTy.Once]
      exact ⟨fun i _ => hone i, Fields.onceStruct_forward fs hw.2 gs hr.1 hr.2 h m⟩
    · rename_i gs
      simp only [CTy.WF] at hr
      simp only [CTy.tree, CTy.Once]
      exact Fields.onceStruct_forward fs hw.2 gs hr.1 hr.2 h m
  | .choice fs, hw, r, hr, h, m => by
    simp only [CTy.WF] at hw
    cases r <;> simp only [CTy.Forward] at h
    rename_i gs
    simp only [CTy.WF] at hr
    simp only [CTy.tree, CTy.Once]
    exact chain_mem_toList _ _ _
        (fun a => Fields.onceSel_forward fs hw.2 gs hr.1 hr.2 h a)
        (fun a => Fields.onceSel_forward fs hw.2 gs hr.1 hr.2 h a) m

theorem Ty.once_forward {d : Dir} : (w : Ty) → w.WF → (r : Ty) → r.WF → w.Forward r →
    (m : w.Msg d) → r.Once (w.tree m)
  | .unit, _, r, _, h, m => by simp only [Ty.Forward] at h; subst h; trivial
  | .scalar s, _, r, _, h, m => by simp only [Ty.Forward] at h; subst h; trivial
  | .comp c, hw, r, hr, h, m => by
    cases r <;> simp only [Ty.Forward] at h
    simp only [Ty.WF] at hw hr
    simp only [Ty.tree, Ty.Once]
    exact CTy.once_forward c hw _ hr h m

theorem Fields.onceStruct_forward {d : Dir} : (fs : Fields) → fs.WF → (gs : Fields) →
    gs.indices.Nodup → gs.WF → fs.Forward gs → (m : fs.Struct d) →
    ∀ p ∈ fs.treeStruct m, gs.OnceAt p.1 p.2
  | .nil, _, _, _, _, _, _, p, hp => by simp [Fields.treeStruct] at hp
  | .cons i r t rest, hw, gs, hn, hg, h, (slot, m), p, hp => by
    simp only [Fields.WF] at hw
    simp only [Fields.Forward] at h
    simp only [Fields.treeStruct, List.mem_append] at hp
    rcases hp with hp | hp
    · split at hp
      · cases hp
      · rename_i v _
        simp only [List.mem_singleton] at hp
        subst hp
        rw [Fields.onceAt_iff hn]
        intro r' t' hl
        exact Ty.once_forward t hw.2.1 t' (hg.lookup hl) (h.1 r' t' hl) v
    · exact Fields.onceStruct_forward rest hw.2.2 gs hn hg h.2 m p hp

theorem Fields.onceSel_forward {d : Dir} {fb : Bool} : (fs : Fields) → fs.WF → (gs : Fields) →
    gs.indices.Nodup → gs.WF → fs.Forward gs → (m : fs.Sel d fb) →
    gs.OnceAt (fs.treeSel m).1 (fs.treeSel m).2
  | .nil, _, _, _, _, _, e => e.elim
  | .cons i r t rest, hw, gs, hn, hg, h, .inl p => by
    simp only [Fields.WF] at hw
    simp only [Fields.Forward] at h
    simp only [Fields.treeSel]
    rw [Fields.onceAt_iff hn]
    intro r' t' hl
    exact Ty.once_forward t hw.2.1 t' (hg.lookup hl) (h.1 r' t' hl) p.val
  | .cons i r t rest, hw, gs, hn, hg, h, .inr p => by
    simp only [Fields.WF] at hw
    simp only [Fields.Forward] at h
    simp only [Fields.treeSel]
    exact Fields.onceSel_forward rest hw.2.2 gs hn hg h.2 p
end

theorem arrayOf_forward {t t' : Ty} (h : t.Forward t') : (arrayOf t).Forward (arrayOf t') := by
  cases t with
  | unit => rw [Ty.Forward] at h; subst h; rfl
  | scalar s => rw [Ty.Forward] at h; subst h; rfl
  | comp c =>
    cases t' with
    | unit => exact h.elim
    | scalar _ => exact h.elim
    | comp c' => exact h

section
variable {S S' : Schemas} (hl : S.Loaded) (hl' : S'.Loaded)
  (hn : ∀ e ∈ S, (e.2.declarations.map (fun d => d.name.snakeCase)).Nodup)
  (hn' : ∀ e ∈ S', (e.2.declarations.map (fun d => d.name.snakeCase)).Nodup)
  {R : TypeKey → TypeKey → Prop} (hR : ReadableSchemas S S' R) (hC : ChoicesStay S S' R)
include hl hl' hn hn' hR hC

mutual
theorem Denotes.forward {k k' : TypeKey} (h : R k k') {c c' : CTy} (hc' : S'.Denotes k' c') : S.Denotes k c → c.Forward c'
  | .struct h1 h2 h3 => by
    obtain ⟨ns, s, d, ns', s', d', g1, g2, -, g4⟩ := hR k k' h
    obtain ⟨rfl, rfl, rfl⟩ := Declares.unique hl hn h1 g1
    cases hc' with
    | struct h1' h2' h3' =>
      obtain ⟨rfl, rfl, rfl⟩ := Declares.unique hl' hn' h1' g2
      exact DenotesFields.forward h1.1 h1'.1 h3' g4 h3
    | choice h1' h2' h3' =>
      obtain ⟨rfl, rfl, rfl⟩ := Declares.unique hl' hn' h1' g2
      exact DenotesFields.forward h1.1 h1'.1 h3' g4 h3
  | .choice h1 h2 h3 => by
    obtain ⟨ns, s, d, ns', s', d', g1, g2, -, g4⟩ := hR k k' h
    obtain ⟨rfl, rfl, rfl⟩ := Declares.unique hl hn h1 g1
    cases hc' with
    | choice h1' h2' h3' =>
      obtain ⟨rfl, rfl, rfl⟩ := Declares.unique hl' hn' h1' g2
      exact DenotesFields.forward h1.1 h1'.1 h3' g4 h3
    | struct h1' h2' h3' =>
      have := hC k k' h h1 h1' h2
      rw [h2'] at this; cases this
theorem DenotesFields.forward {ns ns' : Namespace} {s s' : Schema} (hs : (ns, s) ∈ S) (hs' : (ns', s') ∈ S')
    {gs : List Field} {Gs : Fields} (hG : S'.DenotesFields ns' s' gs Gs) {fs : List Field} {Fs : Fields}
    (h : ∀ f ∈ fs, ∀ f' ∈ gs, f'.index = f.index → SameType R ns ns' s s' f.type.variant f'.type.variant) :
    S.DenotesFields ns s fs Fs → Fs.Forward Gs
  | .nil => trivial
  | .cons (f := f) h1 h2 => by
    refine ⟨?_, DenotesFields.forward hs hs' hG (fun f hf => h f (List.mem_cons_of_mem _ hf)) h2⟩
    intro r t hk
    obtain ⟨g, hg, e1, e2, e3⟩ := DenotesFields.lookup_some hG hk
    exact DenotesType.forward hs hs' (h f List.mem_cons_self g hg e1) e3 h1
theorem DenotesType.forward {ns ns' : Namespace} {s s' : Schema} (hs : (ns, s) ∈ S) (hs' : (ns', s') ∈ S') {v v' : TypeVariant}
    {t t' : Ty} (h : SameType R ns ns' s s' v v') (h' : S'.DenotesType ns' s' v' t') : S.DenotesType ns s v t → t.Forward t'
  | .bool => by cases h; cases h'; rfl
  | .f64 => by cases h; cases h'; rfl
  | .s64 => by cases h; cases h'; rfl
  | .u64 => by cases h; cases h'; rfl
  | .unit => by cases h; cases h'; rfl
  | .bytes => by cases h; cases h'; rfl
  | .string => by cases h; cases h'; rfl
  | .array h1 => by
    cases h with
    | array g =>
      cases h' with
      | array h1' => exact arrayOf_forward (DenotesType.forward hs hs' g h1' h1)
  | .custom h1 h2 => by
    cases h with
    | custom g1 g2 g3 =>
      cases h' with
      | custom h1' h2' =>
        cases RefersTo.unique (hl.importNames _ hs) h1 g1
        cases RefersTo.unique (hl'.importNames _ hs') h1' g2
        exact Denotes.forward g3 h2' h2
end
end

end Typical

import Verif.TsGen.Named

/-!
# Helper: representations of messages and atlases
-/

namespace Typical.TsGen

open Gen (NCTy NTy NFields DeclName FieldName Ev)

theorem slotRep_imp {α : Type} {f g : α → Val → Prop} (h : ∀ a v, f a v → g a v) : {b : Bool} → {a : Slot b α} → {v : Val} →
    slotRep f b a v → slotRep g b a v
  | true, none, _, h' => h'
  | true, some a, _, h' => h a _ h'
  | false, a, _, h' => h a _ h'

theorem chainRep_imp {α β : Type} {f f' : α → List (Str × Val) → Prop} {g g' : β → List (Str × Val) → Prop}
    (hf : ∀ a l, f a l → f' a l) (hg : ∀ a l, g a l → g' a l) : {c : Chain α β} → {v : Val} → chainRep f g c v → chainRep f' g' c v
  | .last _, _, ⟨l, h1, h2⟩ => ⟨l, h1, hg _ _ h2⟩
  | .more _ _, _, ⟨l, w, h1, h2, h3, h4⟩ => ⟨l, w, h1, hf _ _ h2, h3, chainRep_imp hf hg h4⟩

theorem atlChain_imp {α β : Type} {f f' : α → List (Str × Val) → Prop} {g g' : β → List (Str × Val) → Prop}
    (hf : ∀ a l, f a l → f' a l) (hg : ∀ a l, g a l → g' a l) : {c : Chain (Nat × α) (Nat × β)} → {v : Val} → atlChain f g c v → atlChain f' g' c v
  | .last _, _, ⟨l, h1, h2, h3⟩ => ⟨l, h1, h2, hg _ _ h3⟩
  | .more _ _, _, ⟨l, w, h1, h2, h3, h4, h5⟩ => ⟨l, w, h1, h2, hf _ _ h3, h4, atlChain_imp hf hg h5⟩

theorem forall₂_imp {α β : Type} {R R' : α → β → Prop} (h : ∀ a b, R a b → R' a b) {l : List α} {l' : List β} (hl : List.Forall₂ R l l') :
    List.Forall₂ R' l l' := by
  induction hl with
  | nil => exact .nil
  | cons h1 _ ih => exact .cons (h _ _ h1) ih

section
variable {d : Dir} {H H' : Part} (hH : H.Le H')
include hH

mutual
theorem cRep_mono : (c : NCTy) → (m : c.erase.Msg d) → (v : Val) → cRep d H c m v → cRep d H' c m v
  | .bytes, _, _, ⟨r, h1, h2⟩ => ⟨r, h1, hH _ _ h2⟩
  | .string, _, _, h => h
  | .units, _, _, ⟨r, h1, h2⟩ => ⟨r, h1, hH _ _ h2⟩
  | .scalars _, _, _, ⟨r, h1, h2⟩ => ⟨r, h1, hH _ _ h2⟩
  | .array c, _, _, ⟨r, l, h1, h2, h3⟩ => ⟨r, l, h1, hH _ _ h2, forall₂_imp (fun a v h => cRep_mono c a v h) h3⟩
  | .struct _ fs, m, _, ⟨l, h1, h2, h3⟩ => ⟨l, h1, h2, sRep_mono fs m l h3⟩
  | .choice _ fs, _, _, h => chainRep_imp (fun p l h => selRep_mono fs p l h) (fun p l h => selRep_mono fs p l h) h
theorem tRep_mono : (t : NTy) → (m : t.erase.Msg d) → (v : Val) → tRep d H t m v → tRep d H' t m v
  | .unit, _, _, h => h
  | .scalar _, _, _, h => h
  | .comp c, m, v, h => cRep_mono c m v h
theorem sRep_mono : (fs : NFields) → (m : fs.erase.Struct d) → (l : List (Str × Val)) → sRep d H fs m l → sRep d H' fs m l
  | .nil, _, _, _ => trivial
  | .cons _ _ _ t rest, m, l, ⟨⟨v, h1, h2⟩, h3⟩ => ⟨⟨v, h1, slotRep_imp (fun a v h => tRep_mono t a v h) h2⟩, sRep_mono rest m.2 l h3⟩
theorem selRep_mono {fb : Bool} : (fs : NFields) → (p : fs.erase.Sel d fb) → (l : List (Str × Val)) → selRep d H fs p l → selRep d H' fs p l
  | .nil, e, _, _ => e.elim
  | .cons _ _ _ t _, .inl p, _, ⟨⟨v, h1, h2⟩, h3⟩ => ⟨⟨v, h1, tRep_mono t p.val v h2⟩, h3⟩
  | .cons _ _ _ _ rest, .inr p, l, ⟨h1, h2⟩ => ⟨h1, selRep_mono rest p l h2⟩
end

mutual
theorem cAtl_mono : (c : NCTy) → (m : Ts.CAtlas c.erase) → (v : Val) → cAtl H c m v → cAtl H' c m v
  | .bytes, _, _, h => h
  | .string, _, _, ⟨r, h1, h2⟩ => ⟨r, h1, hH _ _ h2⟩
  | .units, _, _, h => h
  | .scalars _, _, _, h => h
  | .array c, _, _, ⟨r, l, h1, h2, h3⟩ => ⟨r, l, h1, hH _ _ h2, forall₂_imp (fun a v h => cAtl_mono c a v h) h3⟩
  | .struct _ fs, m, _, ⟨l, h1, h2, h3⟩ => ⟨l, h1, h2, sAtl_mono fs m.2 l h3⟩
  | .choice _ fs, _, _, h => atlChain_imp (fun p l h => selAtl_mono fs p l h) (fun p l h => selAtl_mono fs p l h) h
theorem tAtl_mono : (t : NTy) → (m : Ts.TAtlas t.erase) → (v : Val) → tAtl H t m v → tAtl H' t m v
  | .unit, _, _, h => h
  | .scalar _, _, _, h => h
  | .comp c, m, v, h => cAtl_mono c m v h
theorem sAtl_mono : (fs : NFields) → (m : Ts.AtlasStruct fs.erase) → (l : List (Str × Val)) → sAtl H fs m l → sAtl H' fs m l
  | .nil, _, _, _ => trivial
  | .cons _ _ _ t rest, m, l, ⟨⟨v, h1, h2⟩, h3⟩ => ⟨⟨v, h1, slotRep_imp (fun a v h => tAtl_mono t a v h) h2⟩, sAtl_mono rest m.2 l h3⟩
theorem selAtl_mono {fb : Bool} : (fs : NFields) → (p : Ts.AtlasSel fb fs.erase) → (l : List (Str × Val)) → selAtl H fs p l → selAtl H' fs p l
  | .nil, e, _, _ => e.elim
  | .cons _ _ _ t _, .inl p, _, ⟨v, h1, h2⟩ => ⟨v, h1, tAtl_mono t p.val v h2⟩
  | .cons _ _ _ _ rest, .inr p, l, h => selAtl_mono rest p l h
end
end

/-- Nothing is represented by `undefined`. -/
theorem cRep_undef {d : Dir} {H : Part} : (c : NCTy) → (m : c.erase.Msg d) → ¬cRep d H c m .undef
  | .bytes, _, ⟨r, h1, _⟩ => nomatch h1
  | .string, _, h => nomatch h
  | .units, _, ⟨r, h1, _⟩ => nomatch h1
  | .scalars _, _, ⟨r, h1, _⟩ => nomatch h1
  | .array c, _, ⟨r, l, h1, _⟩ => nomatch h1
  | .struct _ fs, m, ⟨l, h1, _⟩ => nomatch h1
  | .choice _ fs, .last _, ⟨l, h1, _⟩ => nomatch h1
  | .choice _ fs, .more _ _, ⟨l, _, h1, _⟩ => nomatch h1

theorem encScalar_undef : (s : Scalar) → (x : s.Val) → encScalar s x ≠ .undef
  | .bool, _ => nofun
  | .s64, _ => nofun
  | .u64, _ => nofun
  | .f64, x => by
    intro h
    change encF64 x = _ at h
    unfold encF64 at h
    split at h <;> cases h

theorem tRep_undef {d : Dir} {H : Part} : (t : NTy) → (m : t.erase.Msg d) → ¬tRep d H t m .undef
  | .unit, _, h => nomatch h
  | .scalar s, m, h => encScalar_undef s m h.symm
  | .comp c, m, h => cRep_undef c m h

theorem cAtl_undef {H : Part} : (c : NCTy) → (m : Ts.CAtlas c.erase) → ¬cAtl H c m .undef
  | .bytes, _, h => nomatch h
  | .string, _, ⟨r, h1, _⟩ => nomatch h1
  | .units, _, h => nomatch h
  | .scalars _, _, h => nomatch h
  | .array c, _, ⟨r, l, h1, _⟩ => nomatch h1
  | .struct _ fs, m, ⟨l, h1, _⟩ => nomatch h1
  | .choice _ fs, .last _, ⟨l, h1, _⟩ => nomatch h1
  | .choice _ fs, .more _ _, ⟨l, _, h1, _⟩ => nomatch h1

theorem tAtl_undef {H : Part} : (t : NTy) → (m : Ts.TAtlas t.erase) → ¬tAtl H t m .undef
  | .unit, _, h => nomatch h
  | .scalar _, _, h => nomatch h
  | .comp c, m, h => cAtl_undef c m h

theorem strictEq_undef {v : Val} (h : v ≠ .undef) : strictEq v .undef = some false := by
  cases v <;> first | exact absurd rfl h | rfl

end Typical.TsGen
